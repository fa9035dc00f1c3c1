import Verif.Model.Ldap
/-
Specification vocabulary for what is logged.
-/
namespace Verif.Spec
open Verif.Ldap

/-- One line of visible ASCII characters and spaces. -/
def Printable (s : List Char) : Prop := ∀ c ∈ s, ' ' ≤ c ∧ c ≤ '~'

/-- The first object is the second one or is found within it. -/
inductive Part (x : Obj) : Obj → Prop where
  | refl : Part x x
  | seq {c tag data o} : o ∈ data → Part x o → Part x (.seq c tag data)
  | not {tag o} : Part x o → Part x (.not tag o)
  | desc {c tag d v} : Part x d → Part x (.ava c tag d v)
  | val {c tag d v} : Part x v → Part x (.ava c tag d v)
  | substrings {tag ty subs o} : o ∈ subs → Part x o → Part x (.substrings tag ty subs)
  | message {id o controls} : Part x o → Part x (.message id o controls)
  | filter {tag b s d n l y o as} : Part x o → Part x (.searchRequest tag b s d n l y o as)
  | uri {tag uris o} : o ∈ uris → Part x o → Part x (.searchReference tag uris)
  | modification {tag dn mods o} : o ∈ mods → Part x o → Part x (.modifyRequest tag dn mods)
  | attributes {tag dn o} : Part x o → Part x (.addRequest tag dn o)
  | assertion {tag dn o} : Part x o → Part x (.compare tag dn o)

/-- A bind request whose version is a number and whose password, if there is one, is a string. -/
def Regular : Obj → Prop
  | .bind _ (.int _) _ (.simple (.bytes _)) => True
  | .bind _ (.int _) _ (.sasl _ _) => True
  | .bind .. => False
  | _ => True

end Verif.Spec
