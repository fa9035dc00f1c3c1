import Verif.Model.Dhcp
/-
Specification vocabulary for the DHCP configuration.
-/
namespace Verif.Spec.Dhcp
open Verif.Dhcp
open Verif.Zones (Found)

/-- The addresses in a block. -/
def inside : Block → List Addr
  | .group _ l => l
  | .single a => [a]

/-- The group of a block. -/
def groupId : Block → Option Nat
  | .group g _ => some g
  | .single _ => none

/-- A group names a host: one of its members is the text of the name of the host. -/
def Names (e : Found) (h : Host) : Prop := ∃ vs, e.attributes.lookup "member".toList = some vs ∧ PyStr.text h.dn ∈ vs

/-- An order of sets: everything once. -/
def Complete (O : Order) : Prop := ∀ l, (O l).Perm l

end Verif.Spec.Dhcp
