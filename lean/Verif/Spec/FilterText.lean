import Verif.Model.FilterText
/-
Specification vocabulary for the text form of filters: which filters the claim is about.
-/
namespace Verif.Spec
open Verif.FilterText

/-- A letter of the alphabet without accents. -/
def Letter (c : Char) : Prop := ('a' ≤ c ∧ c ≤ 'z') ∨ ('A' ≤ c ∧ c ≤ 'Z')

/-- A decimal digit. -/
def Digit (c : Char) : Prop := '0' ≤ c ∧ c ≤ '9'

instance (c : Char) : Decidable (Letter c) := inferInstanceAs (Decidable (_ ∨ _))
instance (c : Char) : Decidable (Digit c) := inferInstanceAs (Decidable (_ ∧ _))

/-- An attribute name of the grammar: a letter followed by letters, digits, semicolons and hyphens. -/
def AttrName (s : Str) : Prop :=
  ∃ c t, s = c :: t ∧ Letter c ∧ ∀ x ∈ t, Letter x ∨ Digit x ∨ x = ';' ∨ x = '-'

/-- A dotted decimal object identifier. -/
inductive NumericOid : Str → Prop where
  | single (ds : Str) : ds ≠ [] → (∀ x ∈ ds, Digit x) → NumericOid ds
  | dot (ds r : Str) : ds ≠ [] → (∀ x ∈ ds, Digit x) → NumericOid r → NumericOid (ds ++ '.' :: r)

/-- A matching rule of the grammar. -/
def RuleName (s : Str) : Prop := NumericOid s ∨ AttrName s

/-- Values that are not empty and contain no tab. -/
structure TabFree (v : Str) : Prop where
  nonempty : v ≠ []
  noTab : '\t' ∉ v

/-- Values that are not empty and whose characters have codes below 256. -/
structure Latin (v : Str) : Prop where
  nonempty : v ≠ []
  small : ∀ c ∈ v, c.toNat < 256

/-- The pieces of a substring filter: an optional initial piece, any number of inner ones, an optional final one. -/
def pieces (i : Option Str) (as : List Str) (f : Option Str) : List Piece :=
  (i.map Piece.initial).toList ++ as.map Piece.any ++ (f.map Piece.final).toList

/-- Filters built from valid attribute names and from values satisfying `Ok`.  `and`/`or` have at least one part, a substring filter has at
least one piece, an extensible filter says whether DN attributes count, names the attribute or the rule, and the rule's
name does not begin with `dn` unless the DN flag precedes it. -/
inductive Valid (Ok : Str → Prop) : Filter → Prop where
  | and (fs : List Filter) : fs ≠ [] → (∀ f ∈ fs, Valid Ok f) → Valid Ok (.and fs)
  | or (fs : List Filter) : fs ≠ [] → (∀ f ∈ fs, Valid Ok f) → Valid Ok (.or fs)
  | not (f : Filter) : Valid Ok f → Valid Ok (.not f)
  | equality (a v : Str) : AttrName a → Ok v → Valid Ok (.equality a v)
  | greaterOrEqual (a v : Str) : AttrName a → Ok v → Valid Ok (.greaterOrEqual a v)
  | lessOrEqual (a v : Str) : AttrName a → Ok v → Valid Ok (.lessOrEqual a v)
  | approx (a v : Str) : AttrName a → Ok v → Valid Ok (.approx a v)
  | present (a : Str) : AttrName a → Valid Ok (.present a)
  | substrings (a : Str) (i : Option Str) (as : List Str) (f : Option Str) : AttrName a → pieces i as f ≠ [] →
      (∀ v ∈ i, Ok v) → (∀ v ∈ as, Ok v) → (∀ v ∈ f, Ok v) → Valid Ok (.substrings a (pieces i as f))
  | extType (a v : Str) (d : Bool) : AttrName a → Ok v → Valid Ok (.extensible none (some a) v (some d))
  | ext (r v : Str) (t : Option Str) (d : Bool) : RuleName r → (∀ a ∈ t, AttrName a) → Ok v →
      (d = false → ¬ ['d', 'n'] <+: r) → Valid Ok (.extensible (some r) t v (some d))

end Verif.Spec
