import Verif.Spec.FilterText
/-
The string representation of search filters (RFC 4515, section 3) as a relation between texts and filters, written without
reference to the parser.  Where the code's grammar departs from the RFC, the comment says so.
-/
namespace Verif.Spec
open Verif.FilterText

/-- A hexadecimal digit and its value. -/
def HexDigit (c : Char) (n : Nat) : Prop :=
  ('0' ≤ c ∧ c ≤ '9' ∧ c.toNat = n + '0'.toNat) ∨ ('a' ≤ c ∧ c ≤ 'f' ∧ c.toNat + 10 = n + 'a'.toNat) ∨
    ('A' ≤ c ∧ c ≤ 'F' ∧ c.toNat + 10 = n + 'A'.toNat)

/-- `ValueText t v`: the text `t` stands for the value `v`.  A character stands for itself unless it is one of
`* ( ) \ NUL`; `\hh` stands for the character with that code. -/
inductive ValueText : Str → Str → Prop where
  | nil : ValueText [] []
  | plain (c : Char) (t v : Str) : c ∉ ['*', '(', ')', '\\', '\x00'] → ValueText t v → ValueText (c :: t) (c :: v)
  | hex (h l : Char) (m n : Nat) (t v : Str) : HexDigit h m → HexDigit l n → ValueText t v →
      ValueText ('\\' :: h :: l :: t) (Char.ofNat (16 * m + n) :: v)

/-- A part of a substring filter: no text for an absent piece, else the text of a value that is not empty. -/
def PartText (t : Str) : Option Str → Prop
  | none => t = []
  | some v => v ≠ [] ∧ ValueText t v

/-- The text of the flag that asks for the components of the DN. -/
def flagText (d : Bool) : Str := if d then ":dn".toList else []

/-- The text of the matching rule of an extensible filter. -/
def ruleText : Option Str → Str
  | some r => ':' :: r
  | none => []

/-- `ItemText t f`: the text `t` (without the parentheses) stands for the simple filter `f`.  The code wants values that
are not empty, where the RFC also admits empty ones. -/
inductive ItemText : Str → Filter → Prop where
  | equality (a t v : Str) : AttrName a → v ≠ [] → ValueText t v → ItemText (a ++ "=".toList ++ t) (.equality a v)
  | greaterOrEqual (a t v : Str) : AttrName a → v ≠ [] → ValueText t v →
      ItemText (a ++ ">=".toList ++ t) (.greaterOrEqual a v)
  | lessOrEqual (a t v : Str) : AttrName a → v ≠ [] → ValueText t v → ItemText (a ++ "<=".toList ++ t) (.lessOrEqual a v)
  | approx (a t v : Str) : AttrName a → v ≠ [] → ValueText t v → ItemText (a ++ "~=".toList ++ t) (.approx a v)
  | present (a : Str) : AttrName a → ItemText (a ++ "=*".toList) (.present a)
  | substrings (a ti tf : Str) (i f : Option Str) (as : List (Str × Str)) : AttrName a → PartText ti i → PartText tf f →
      (∀ p ∈ as, p.2 ≠ [] ∧ ValueText p.1 p.2) → pieces i (as.map Prod.snd) f ≠ [] →
      ItemText (a ++ "=".toList ++ ti ++ "*".toList ++ (as.map fun p => p.1 ++ "*".toList).flatten ++ tf)
        (.substrings a (pieces i (as.map Prod.snd) f))
  | extensible (a t v : Str) (d : Bool) (r : Option Str) : AttrName a → (∀ x ∈ r, RuleName x) → v ≠ [] → ValueText t v →
      ItemText (a ++ flagText d ++ ruleText r ++ ":=".toList ++ t) (.extensible r (some a) v (some d))
  | rule (r t v : Str) (d : Bool) : RuleName r → v ≠ [] → ValueText t v →
      ItemText (flagText d ++ ruleText (some r) ++ ":=".toList ++ t) (.extensible (some r) none v (some d))

/-- `Denotes t f`: the text `t` stands for the filter `f`. -/
inductive Denotes : Str → Filter → Prop where
  | and (ps : List (Str × Filter)) : ps ≠ [] → (∀ p ∈ ps, Denotes p.1 p.2) →
      Denotes ("(&".toList ++ (ps.map Prod.fst).flatten ++ ")".toList) (.and (ps.map Prod.snd))
  | or (ps : List (Str × Filter)) : ps ≠ [] → (∀ p ∈ ps, Denotes p.1 p.2) →
      Denotes ("(|".toList ++ (ps.map Prod.fst).flatten ++ ")".toList) (.or (ps.map Prod.snd))
  | not (t : Str) (f : Filter) : Denotes t f → Denotes ("(!".toList ++ t ++ ")".toList) (.not f)
  | item (t : Str) (f : Filter) : ItemText t f → Denotes ("(".toList ++ t ++ ")".toList) f

/-- No matching rule in the filter begins with `dn`, unless the DN flag precedes it. -/
def ClearRules : Filter → Prop
  | .and fs => ∀ f ∈ fs, ClearRules f
  | .or fs => ∀ f ∈ fs, ClearRules f
  | .not f => ClearRules f
  | .extensible (some r) _ _ d => d = some true ∨ ¬ "dn".toList <+: r
  | _ => True

end Verif.Spec
