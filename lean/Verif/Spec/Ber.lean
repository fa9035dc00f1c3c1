import Verif.Model.Basic
/-
Specification vocabulary for X.690: what a string of content octets denotes.  Independent of the code.
-/
namespace Verif.Spec

/-- The number denoted by a big-endian octet string. -/
def bigEndian : Bytes → Nat
  | [] => 0
  | b :: bs => b.toNat * 256 ^ bs.length + bigEndian bs

/-- The integer denoted by an octet string read as two's complement (X.690 8.3.3): the big-endian number,
minus `256 ^ n` if the first of the `n` octets has its top bit set. -/
def twosComplement : Bytes → Int
  | [] => 0
  | b :: bs =>
    if 128 ≤ b.toNat then (bigEndian (b :: bs) : Int) - 256 ^ (bs.length + 1) else bigEndian (b :: bs)

end Verif.Spec
