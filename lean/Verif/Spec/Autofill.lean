import Verif.Spec.Syntax
import Verif.Model.Autofill
/-
What the autofillers are for: identifiers that follow from the Unix numbers of an account.
-/
namespace Verif.Spec.Autofill
open Verif.Spec.Modify Verif.Autofill

/-- An attribute that is to have the value that belongs to the number in another one. -/
structure Track where
  number : Str
  derived : Str
  value : Int → Str

/-- Samba: an account `u` has the relative identifier `2u + 1000`, a group `g` has `2g + 1001`; a security identifier is that of
the domain with the relative identifier.  The group may be given. -/
def tracks : Filler → List Track
  | .posix => []
  | .samba => [⟨"uidNumber".toList, "rid".toList, fun n => Decimal.ofInt (2 * n + 1000)⟩,
      ⟨"gidNumber".toList, "primaryGroupID".toList, fun n => Decimal.ofInt (2 * n + 1001)⟩]
  | .sam ⟨sid, none⟩ => [⟨"uidNumber".toList, "sambaSID".toList, fun n => sid ++ "-".toList ++ Decimal.ofInt (2 * n + 1000)⟩,
      ⟨"gidNumber".toList, "sambaPrimaryGroupSID".toList, fun n => sid ++ "-".toList ++ Decimal.ofInt (2 * n + 1001)⟩]
  | .sam ⟨sid, some _⟩ => [⟨"uidNumber".toList, "sambaSID".toList, fun n => sid ++ "-".toList ++ Decimal.ofInt (2 * n + 1000)⟩]

/-- The name of an attribute, as it is compared. -/
def nameOf (s : Str) : Bytes := fold (Utf8.encode s)

/-- Whenever there is one number, the derived attribute has the value that belongs to it, and no other. -/
def Follows (c : Content) (t : Track) : Prop :=
  ∀ v n, (∀ b, c (nameOf t.number) b ↔ b = Utf8.encode v) → Decimal.toInt v = .ok n →
    ∀ b, c (nameOf t.derived) b ↔ b = Utf8.encode (t.value n)

/-- The attribute that an edit is about. -/
def keyOf : Syntax.Edit → PyStr
  | .add k _ => k
  | .update k _ => k
  | .remove k _ => k
  | .clear k => k
  | .set k _ => k
  | .del k => k

/-- A name that the fillers know when they are told of it: `uidNumber` and `gidNumber` in this spelling. -/
def Exact (k : PyStr) : Prop :=
  (fold k.toBytes = nameOf "uidNumber".toList → k = .text "uidNumber".toList) ∧
  (fold k.toBytes = nameOf "gidNumber".toList → k = .text "gidNumber".toList)

/-- An edit that uses text and leaves the derived attributes alone.  An attribute that is set or deleted as a whole is spelled as
the fillers know it; its set of values may be reached through any spelling. -/
structure Proper (fs : List Filler) (e : Syntax.Edit) : Prop where
  speaks : allText.Speaks e
  ascii : (keyOf e).Ascii
  exact : ∀ k, (∃ vs, e = .set k vs) ∨ e = .del k → Exact k
  derived : ∀ t ∈ fs.flatMap tracks, fold (keyOf e).toBytes ≠ nameOf t.derived

/-- An entry of text that is on the server, with the numbers in the spelling that the fillers know, and named by something else than
a derived attribute. -/
structure Base (fs : List Filler) (s : Syntax.St) : Prop where
  tidy : allText.Tidy s.attrs
  alive : s.deleted = false
  exact : ∀ p ∈ s.attrs, Exact p.1
  named : ∃ r rest, s.dn = r :: rest ∧ ∀ a ∈ r, ∀ t ∈ fs.flatMap tracks, a.attributeType ≠ t.derived

/-- And the derived attributes follow the numbers. -/
structure Good (fs : List Filler) (s : Syntax.St) : Prop extends Base fs s where
  follows : ∀ t ∈ fs.flatMap tracks, Follows (content s.attrs) t

/-- No two fillers are after the same attribute. -/
def Distinct (fs : List Filler) : Prop := (fs.flatMap tracks).Pairwise fun t u => nameOf t.derived ≠ nameOf u.derived

end Verif.Spec.Autofill
