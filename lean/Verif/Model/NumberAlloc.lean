import Verif.Model.Basic
/-
Model of /repo/ldaptor/numberalloc.py.

`makeAGuess` is any test of numbers that gives the same answer each time it is asked; the Deferreds are taken as fired.
-/
namespace Verif.NumberAlloc

/-- numberalloc.py:6-12: the attributes of a `freeNumberGuesser`; `min=None` has become 0. -/
structure Guesser where
  min : Int
  max : Option Int
  deriving DecidableEq, Repr

/-- What `_nextGuess` does: return a number, or ask about another. -/
inductive Next where
  | done (n : Int)
  | ask (g : Guesser) (guess : Int)
  deriving DecidableEq, Repr

/-- numberalloc.py:19-23: remembering the last answer. -/
def learn (g : Guesser) (found : Bool) (last : Int) : Guesser :=
  if found then { g with min := last } else { g with max := some last }

/-- numberalloc.py:25-35: the rest of `_nextGuess`. -/
def choose (g : Guesser) : Next :=
  match g.max with
  | some m => if m = g.min ∨ m = g.min + 1 then .done m else .ask g ((m + g.min) / 2)
  | none => .ask g ((g.min + 1000 + g.min) / 2)

/-- numberalloc.py:18-35 `_nextGuess`, repeated, for at most the given number of questions. -/
def loop (taken : Int → Bool) : Nat → Guesser → Int → Option Int
  | 0, _, _ => none
  | fuel + 1, g, guess =>
    match choose (learn g (taken guess) guess) with
    | .done n => some n
    | .ask g' guess' => loop taken fuel g' guess'

/-- numberalloc.py:13-16 `startGuessing`, for at most the given number of questions. -/
def start (taken : Int → Bool) (fuel : Nat) (g : Guesser) : Option Int := loop taken fuel g g.min

end Verif.NumberAlloc
