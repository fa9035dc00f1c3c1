import Verif.Spec.FilterGrammar
import Verif.Spec.Message
import Verif.Model.Utf8
/-
The string representation of search filters, RFC 4515 section 3, as a relation between texts and the filters of RFC 4511, whose
values are octets.
-/
namespace Verif.Spec

/-- `valueencoding`: a character stands for its octets in UTF-8 unless it is one of `* ( ) \ NUL`; `\hh` stands for the octet
with that value. -/
inductive ValueOctets : Str → Bytes → Prop where
  | nil : ValueOctets [] []
  | plain (c : Char) (t : Str) (b : Bytes) : c ∉ ['*', '(', ')', '\\', '\x00'] → ValueOctets t b →
      ValueOctets (c :: t) (Utf8.encode [c] ++ b)
  | hex (h l : Char) (m n : Nat) (t : Str) (b : Bytes) : HexDigit h m → HexDigit l n → ValueOctets t b →
      ValueOctets ('\\' :: h :: l :: t) (UInt8.ofNat (16 * m + n) :: b)

/-- The first or last part of a substring filter: no text for an absent part. -/
def PartOctets (t : Str) : Option Bytes → Prop
  | none => t = []
  | some b => b ≠ [] ∧ ValueOctets t b

/-- The parts of a substring filter. -/
def parts (i : Option Bytes) (as : List Bytes) (f : Option Bytes) : List (SubKind × Bytes) :=
  (i.map (SubKind.initial, ·)).toList ++ as.map (SubKind.any, ·) ++ (f.map (SubKind.final, ·)).toList

/-- `filtercomp` for a single test, without the parentheses. -/
inductive ItemOctets : Str → Filter → Prop where
  | equal (a t : Str) (b : Bytes) : AttrName a → ValueOctets t b → ItemOctets (a ++ "=".toList ++ t) (.equal (Utf8.encode a) b)
  | ge (a t : Str) (b : Bytes) : AttrName a → ValueOctets t b → ItemOctets (a ++ ">=".toList ++ t) (.ge (Utf8.encode a) b)
  | le (a t : Str) (b : Bytes) : AttrName a → ValueOctets t b → ItemOctets (a ++ "<=".toList ++ t) (.le (Utf8.encode a) b)
  | approx (a t : Str) (b : Bytes) : AttrName a → ValueOctets t b → ItemOctets (a ++ "~=".toList ++ t) (.approx (Utf8.encode a) b)
  | present (a : Str) : AttrName a → ItemOctets (a ++ "=*".toList) (.present (Utf8.encode a))
  | substrings (a ti tf : Str) (i f : Option Bytes) (as : List (Str × Bytes)) : AttrName a → PartOctets ti i → PartOctets tf f →
      (∀ p ∈ as, p.2 ≠ [] ∧ ValueOctets p.1 p.2) → parts i (as.map Prod.snd) f ≠ [] →
      ItemOctets (a ++ "=".toList ++ ti ++ "*".toList ++ (as.map fun p => p.1 ++ "*".toList).flatten ++ tf)
        (.substrings (Utf8.encode a) (parts i (as.map Prod.snd) f))
  | ext (a t : Str) (b : Bytes) (d : Bool) (r : Option Str) : AttrName a → (∀ x ∈ r, RuleName x) → ValueOctets t b →
      ItemOctets (a ++ flagText d ++ ruleText r ++ ":=".toList ++ t) (.ext (r.map Utf8.encode) (some (Utf8.encode a)) b (some d))
  | rule (r t : Str) (b : Bytes) (d : Bool) : RuleName r → ValueOctets t b →
      ItemOctets (flagText d ++ ruleText (some r) ++ ":=".toList ++ t) (.ext (some (Utf8.encode r)) none b (some d))

/-- `filter` -/
inductive TextOf : Str → Filter → Prop where
  | and (ps : List (Str × Filter)) : ps ≠ [] → (∀ p ∈ ps, TextOf p.1 p.2) →
      TextOf ("(&".toList ++ (ps.map Prod.fst).flatten ++ ")".toList) (.and (ps.map Prod.snd))
  | or (ps : List (Str × Filter)) : ps ≠ [] → (∀ p ∈ ps, TextOf p.1 p.2) →
      TextOf ("(|".toList ++ (ps.map Prod.fst).flatten ++ ")".toList) (.or (ps.map Prod.snd))
  | not (t : Str) (f : Filter) : TextOf t f → TextOf ("(!".toList ++ t ++ ")".toList) (.not f)
  | item (t : Str) (f : Filter) : ItemOctets t f → TextOf ("(".toList ++ t ++ ")".toList) f

/-- Every value has an octet, and no matching rule begins with `dn` unless the DN flag precedes it. -/
inductive Usual : Filter → Prop where
  | and (fs) : (∀ f ∈ fs, Usual f) → Usual (.and fs)
  | or (fs) : (∀ f ∈ fs, Usual f) → Usual (.or fs)
  | not (f) : Usual f → Usual (.not f)
  | equal (a b) : b ≠ [] → Usual (.equal a b)
  | ge (a b) : b ≠ [] → Usual (.ge a b)
  | le (a b) : b ≠ [] → Usual (.le a b)
  | approx (a b) : b ≠ [] → Usual (.approx a b)
  | present (a) : Usual (.present a)
  | substrings (a ps) : Usual (.substrings a ps)
  | ext (r t b d) : b ≠ [] → (∀ x, r = some (Utf8.encode x) → d = some true ∨ ¬ "dn".toList <+: x) → Usual (.ext r t b d)

/-- Escapes stand for ASCII: the first digit of each is less than 8. -/
def LowEscapes (s : Str) : Prop := ∀ pre c post, s = pre ++ '\\' :: c :: post → '0' ≤ c ∧ c ≤ '7'

end Verif.Spec
