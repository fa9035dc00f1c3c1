/-
Model of `LDAPEntryWithClient.setPassword`, /repo/ldaptor/protocols/ldap/ldapsyntax.py:533-585.

A step (`setPasswordMaybe_…`) is a function on the state of the world: what it does until its Deferred fires, and how that
ends.  `W` is the state, `E` the exceptions, `N` the names of steps.
-/
namespace Verif.SetPassword

/-- How a step ends; `fail.trap`, ldapsyntax.py:546-548, tells the two kinds of failure apart: `trapped` stands for
`LDAPException` and `DNNotPresentError`. -/
inductive Outcome (E : Type) where
  | success
  | trapped (e : E)
  | other (e : E)

/-- `setPasswordMaybe_name` and `_setPasswordPriority_name` -/
structure Step (W E N : Type) where
  name : N
  priority : Int
  run : W → W × Outcome E

/-- The entries of the list of results: `(True, None)`, `(False, fail)`, `(None, Failure(PasswordSetAborted()))`. -/
inductive Result (E : Type) where
  | success
  | failed (e : E)
  | aborted
  deriving DecidableEq, Repr

/-- Whether `x[0]` is true. -/
def Result.ok {E : Type} : Result E → Bool
  | .success => true
  | _ => false

/-- How `setPassword` ends: with the entry, with a `PasswordSetAggregateError`, or with another exception. -/
inductive Report (E N : Type) where
  | success
  | aggregate (l : List (N × Result E))
  | other (e : E)
  deriving DecidableEq, Repr

variable {W E N : Type}

/-- ldapsyntax.py:550-570 `_setPasswordAll` -/
def all (results : List (Result E)) : List (Step W E N) → W → W × Except E (List (Result E))
  | [], w => (w, .ok results)
  | s :: ss, w =>
    match results.getLast? with
    | some r =>
      if r.ok then
        match s.run w with
        | (w', .success) => all (results ++ [.success]) ss w'
        | (w', .trapped e) => all (results ++ [.failed e]) ss w'
        | (w', .other e) => (w', .error e)
      else all (results ++ [.aborted]) ss w
    | none =>
      match s.run w with
      | (w', .success) => all (results ++ [.success]) ss w'
      | (w', .trapped e) => all (results ++ [.failed e]) ss w'
      | (w', .other e) => (w', .error e)

/-- ldapsyntax.py:533-541 `_cbSetPassword`; the two lists have the same length. -/
def collect (names : List N) (results : List (Result E)) : Report E N :=
  match (names.zip results).filter fun p => !p.2.ok with
  | [] => .success
  | l => .aggregate l

/-- Insertion for a stable sort. -/
def insert (s : Step W E N) : List (Step W E N) → List (Step W E N)
  | [] => [s]
  | t :: l => if s.priority ≤ t.priority then s :: t :: l else t :: insert s l

/-- ldapsyntax.py:580: `names.sort` by priority -/
def sort : List (Step W E N) → List (Step W E N)
  | [] => []
  | s :: l => insert s (sort l)

/-- ldapsyntax.py:572-584 `setPassword`; `steps` are the steps the object has, in the order of `dir`. -/
def setPassword (steps : List (Step W E N)) (w : W) : W × Report E N :=
  match all [] (sort steps) w with
  | (w', .ok results) => (w', collect ((sort steps).map (·.name)) results)
  | (w', .error e) => (w', .other e)

end Verif.SetPassword
