import Verif.Model.Delta
/-
What a modify request does to an entry on a server (RFC 4511, 4.6), independently of this library.

The content of an entry says which octet strings are values of which attribute.  Attribute names are compared without
regard to the case of ASCII letters; values are compared as octets.  An attribute without values is not there.
-/
namespace Verif.Spec.Modify

/-- The content of an entry: attribute name (in lower case), value. -/
abbrev Content := Bytes → Bytes → Prop

/-- One change of a modify request. -/
structure Change where
  kind : ModKind
  attr : Bytes
  values : List Bytes
  deriving DecidableEq, Repr

/-- The name under which an attribute is known. -/
def fold (b : Bytes) : Bytes := PyStr.lowerBytes b

/-- The content after a change. -/
def Change.effect (m : Change) (c : Content) : Content := fun n b =>
  if n = fold m.attr then
    match m.kind with
    | .add => c n b ∨ b ∈ m.values
    | .delete => m.values ≠ [] ∧ c n b ∧ b ∉ m.values
    | .replace => b ∈ m.values
  else c n b

/-- The changes a server has to accept, as far as this does not depend on the schema: values that are added are new,
values and attributes that are deleted are there. -/
def Change.Accepted (m : Change) (c : Content) : Prop :=
  match m.kind with
  | .add => m.values ≠ [] ∧ m.values.Nodup ∧ ∀ b ∈ m.values, ¬ c (fold m.attr) b
  | .delete => (∃ b, c (fold m.attr) b) ∧ m.values.Nodup ∧ ∀ b ∈ m.values, c (fold m.attr) b
  | .replace => m.values.Nodup

/-- A whole request, in order. -/
def effects (ms : List Change) (c : Content) : Content := ms.foldl (fun c m => m.effect c) c

def AllAccepted : List Change → Content → Prop
  | [], _ => True
  | m :: ms, c => m.Accepted c ∧ AllAccepted ms (m.effect c)

/-- What attributes of a local entry stand for. -/
def content (d : Attrs) : Content := fun n b => ∃ p ∈ d, fold p.1.toBytes = n ∧ ∃ v ∈ p.2, v.toBytes = b

/-- What a recorded modification stands for: names and texts are sent as UTF-8. -/
def change (m : Mod) : Change := ⟨m.kind, m.key.toBytes, m.values.map PyStr.toBytes⟩

/-- The same content. -/
def Same (c d : Content) : Prop := ∀ n b, c n b ↔ d n b

/-- The number that stands for a kind of change (RFC 4511, 4.6). -/
def code : ModKind → Int
  | .add => 0
  | .delete => 1
  | .replace => 2

/-- A change as it is written in a request. -/
def Change.wire (m : Change) : Int × Bytes × List Bytes := (code m.kind, m.attr, m.values)

end Verif.Spec.Modify
