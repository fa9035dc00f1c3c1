import Verif.Model.Zones
/-
Specification vocabulary for the zone files.
-/
namespace Verif.Spec.Zones
open Verif.Zones

/-- The start of a forward zone file: the origin and an empty line. -/
def origin (domain : Str) : Str := "$ORIGIN\t".toList ++ domain ++ ".\n\n".toList

/-- The address in front, the name behind: a record for the name of a host in a net. -/
def aRecord (dn name net ip : Str) : Str := ";  ".toList ++ dn ++ ['\n'] ++ name ++ ['.'] ++ net ++ "\tIN A\t".toList ++ ip ++ "\n\n".toList

/-- The record for the address of a host, given as labels. -/
def ptrRecord (dn name net domain : Str) (a b c d : Str) : Str :=
  ";  ".toList ++ dn ++ ['\n'] ++ d ++ ['.'] ++ c ++ ['.'] ++ b ++ ['.'] ++ a ++ ".in-addr.arpa.\tIN PTR\t".toList
    ++ name ++ ['.'] ++ net ++ ['.'] ++ domain ++ ".\n\n".toList

/-- A host that can be read: one name, and a list of addresses. -/
def Readable (e : Found) : Prop :=
  (∃ v, e.attributes.lookup "cn".toList = some [v]) ∧ ∃ vs, e.attributes.lookup "ipHostNumber".toList = some vs

/-- An address that belongs to the net of `n` bits: its first `n` bits are those of the net, whose other bits are off. -/
def Inside (net ip n : Nat) : Prop := ∃ q r, r < 2 ^ (32 - n) ∧ ip = q * 2 ^ (32 - n) + r ∧ net = q * 2 ^ (32 - n)

/-- `p` is the first member of `l` for which `f` holds, and `f` fails for those before it. -/
def First {α : Type} (f : α → Py Bool) (l : List α) (p : α) : Prop :=
  ∃ before after, l = before ++ p :: after ∧ (∀ q ∈ before, f q = .ok false) ∧ f p = .ok true

/-- Files that are put in place: each pair is a temporary path and a path. -/
def moved (pairs : List (Str × Str)) (fs : Files) : Files := fun p =>
  match pairs.find? (fun x => x.2 = p) with
  | some x => fs x.1
  | none => if p ∈ pairs.map (·.1) then none else fs p

end Verif.Spec.Zones
