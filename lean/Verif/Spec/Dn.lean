import Verif.Model.Dn
/-
Specification of DN comparison: DNs are compared without regard to case, component by component.
-/
namespace Verif.Spec
open Verif.Dn

/-- A pair with case removed. -/
def foldAva (U : Unicode) (a : Ava) : Str × Str := (U.lower a.attributeType, U.lower a.value)
/-- An RDN with case removed. -/
def foldRdn (U : Unicode) (r : Rdn) : List (Str × Str) := r.map (foldAva U)
/-- A DN with case removed. -/
def foldDn (U : Unicode) (d : Dn) : List (List (Str × Str)) := d.map (foldRdn U)

/-- A DN is in canonical case when removing case changes nothing. -/
def CanonicalCase (U : Unicode) (d : Dn) : Prop :=
  ∀ r ∈ d, ∀ a ∈ r, U.lower a.attributeType = a.attributeType ∧ U.lower a.value = a.value

end Verif.Spec
