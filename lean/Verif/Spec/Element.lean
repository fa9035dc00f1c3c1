import Verif.Spec.Ber
/-
Specification vocabulary for X.690 element framing (definite lengths), independent of the code.
-/
namespace Verif.Spec

/-- The header of a BER element with a one-octet tag and a definite length: the number of header octets and the
announced number of content octets.  `none` if the header is not complete (or uses the indefinite form). -/
def header : Bytes → Option (Nat × Nat)
  | _ :: l :: rest =>
    if l.toNat < 128 then some (2, l.toNat)
    else
      let k := l.toNat - 128
      if k = 0 ∨ rest.length < k then none
      else some (2 + k, bigEndian (rest.take k))
  | _ => none

/-- `m` begins with a complete element of `n` octets (header plus content). -/
def StartsWithElement (m : Bytes) (n : Nat) : Prop :=
  ∃ h c, header m = some (h, c) ∧ n = h + c ∧ n ≤ m.length

/-- `w` is exactly one complete element. -/
def IsElement (w : Bytes) : Prop := StartsWithElement w w.length

/-- The content octets of an element. -/
def contentOf (w : Bytes) : Bytes :=
  match header w with
  | some (h, c) => (w.drop h).take c
  | none => []

/-- The tag octet with the constructed/primitive bit cleared. -/
def tagOf (w : Bytes) : UInt8 := w.headD 0 &&& 0xDF

/-- A concatenation of complete elements. -/
inductive Elements : Bytes → Prop where
  | nil : Elements []
  | cons (w rest : Bytes) : IsElement w → Elements rest → Elements (w ++ rest)

end Verif.Spec
