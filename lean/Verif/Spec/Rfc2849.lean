import Verif.Model.Text
/-
The grammar of LDIF, RFC 2849 page 3-5, without folding and comments, which the library does not write.
-/
namespace Verif.Spec.Rfc2849

/-- SAFE-STRING: empty, or octets from 1 to 127 without LF and CR, the first of which is not a space, a colon or `<`. -/
structure SafeString (b : Bytes) : Prop where
  chars : ∀ c ∈ b, 1 ≤ c ∧ c ≤ 127 ∧ c ≠ 10 ∧ c ≠ 13
  start : b.head? ≠ some 32 ∧ b.head? ≠ some 58 ∧ b.head? ≠ some 60

/-- BASE64-CHAR. -/
def Base64Char (c : UInt8) : Prop := c = 43 ∨ c = 47 ∨ (48 ≤ c ∧ c ≤ 57) ∨ c = 61 ∨ (65 ≤ c ∧ c ≤ 90) ∨ (97 ≤ c ∧ c ≤ 122)

/-- attr-type-chars, and the letters of options and numbers of OIDs. -/
def NameChar (c : UInt8) : Prop := (48 ≤ c ∧ c ≤ 57) ∨ (65 ≤ c ∧ c ≤ 90) ∨ (97 ≤ c ∧ c ≤ 122) ∨ c = 45 ∨ c = 46 ∨ c = 59

/-- AttributeDescription: starts with a letter or a digit. -/
structure AttributeDescription (b : Bytes) : Prop where
  chars : ∀ c ∈ b, NameChar c
  start : ∃ c, b.head? = some c ∧ c ≠ 45 ∧ c ≠ 46 ∧ c ≠ 59

/-- value-spec and SEP: what follows the name. -/
inductive ValueSpec : Bytes → Prop where
  | plain (v : Bytes) : SafeString v → ValueSpec ([58, 32] ++ v ++ [10])
  | base64 (s : Bytes) : (∀ c ∈ s, Base64Char c) → ValueSpec ([58, 58, 32] ++ s ++ [10])

/-- attrval-spec -/
inductive AttrvalSpec : Bytes → Prop where
  | line (a r : Bytes) : AttributeDescription a → ValueSpec r → AttrvalSpec (a ++ r)

/-- dn-spec with its SEP; the words are case insensitive, the library writes lower case. -/
inductive DnSpec : Bytes → Prop where
  | line (r : Bytes) : ValueSpec r → DnSpec ([100, 110] ++ r)

/-- An ldif-attrval-record with the empty line after it. -/
inductive ContentRecord : Bytes → Prop where
  | record (dn : Bytes) (attrs : List Bytes) : DnSpec dn → attrs ≠ [] → (∀ a ∈ attrs, AttrvalSpec a) →
      ContentRecord (dn ++ attrs.flatten ++ [10])

/-- mod-spec -/
inductive ModSpec : Bytes → Prop where
  | spec (word a : Bytes) (attrs : List Bytes) :
      (word = [97, 100, 100] ∨ word = [100, 101, 108, 101, 116, 101] ∨ word = [114, 101, 112, 108, 97, 99, 101]) →
      AttributeDescription a → (∀ x ∈ attrs, AttrvalSpec x) → ModSpec (word ++ [58, 32] ++ a ++ [10] ++ attrs.flatten ++ [45, 10])

/-- `changetype: ` and the word. -/
def changetype (word : Bytes) : Bytes := [99, 104, 97, 110, 103, 101, 116, 121, 112, 101, 58, 32] ++ word ++ [10]

/-- An ldif-change-record with the empty line after it. -/
inductive ChangeRecord : Bytes → Prop where
  | add (dn : Bytes) (attrs : List Bytes) : DnSpec dn → attrs ≠ [] → (∀ a ∈ attrs, AttrvalSpec a) →
      ChangeRecord (dn ++ changetype [97, 100, 100] ++ attrs.flatten ++ [10])
  | delete (dn : Bytes) : DnSpec dn → ChangeRecord (dn ++ changetype [100, 101, 108, 101, 116, 101] ++ [10])
  | modify (dn : Bytes) (mods : List Bytes) : DnSpec dn → (∀ m ∈ mods, ModSpec m) →
      ChangeRecord (dn ++ changetype [109, 111, 100, 105, 102, 121] ++ mods.flatten ++ [10])

end Verif.Spec.Rfc2849
