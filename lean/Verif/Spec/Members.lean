import Verif.Model.Entry
/-
What C109 says, without the code that looks for members.
-/
namespace Verif.Spec.Members
open Verif.Dn

/-- A value of the attribute `member`: those of the name written as octets count only if there are none of the name as text. -/
def Member (U : Unicode) (e : Entry) (v : PyStr) : Prop :=
  (∃ vs, e.attrs.find U (.text "member".toList) = some vs ∧ v ∈ vs) ∨
  (e.attrs.find U (.text "member".toList) = none ∧ ∃ vs, e.attrs.find U (.bytes (Utf8.encode "member".toList)) = some vs ∧ v ∈ vs)

/-- A value is the text of a DN, or that text as octets. -/
def Written (v : PyStr) (s : Str) : Prop := v = .text s ∨ v = .bytes (Utf8.encode s)

end Verif.Spec.Members
