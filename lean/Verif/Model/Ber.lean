import Verif.Model.Basic
/-
Model of the integer and length layer of /repo/ldaptor/protocols/pureber.py.
-/
namespace Verif.Ber

/-- `bytes((i % 256,))` : one byte holding the low eight bits of an integer (pureber.py:91,93). -/
def lowByte (i : Int) : UInt8 := UInt8.ofNat (i % 256).toNat

/-- pureber.py:88-94 `int2ber`, the `while` loop with its accumulator `encoded`.
`i >> 8` on Python integers is floor division by 256. -/
def int2berLoop (signed : Bool) (i : Int) (encoded : Bytes) : Bytes :=
  if (signed && (decide (i > 127) || decide (i < -128))) || (!signed && decide (i > 255)) then
    int2berLoop signed (i / 256) (lowByte i :: encoded)
  else
    lowByte i :: encoded
termination_by i.natAbs
decreasing_by
  rename_i h
  simp only [Bool.or_eq_true, Bool.and_eq_true, decide_eq_true_eq] at h
  omega

/-- pureber.py:88-94 `int2ber`. -/
def int2ber (i : Int) (signed : Bool := true) : Bytes := int2berLoop signed i []

/-- pureber.py:97-104 `ber2int`.  `(v << 8) | b` is `v * 256 + b` because the low eight bits of
`v << 8` are zero. -/
def ber2int (e : Bytes) (signed : Bool := true) : Py Int :=
  match e with
  | [] => .error .insufficientData
  | b :: rest =>
    let v0 : Int := if 128 ≤ b.toNat ∧ signed = true then (b.toNat : Int) - 256 else b.toNat
    .ok (rest.foldl (fun v (b : UInt8) => v * 256 + (b.toNat : Int)) v0)

/-- pureber.py:151-154 `need`. -/
def need (buf : Bytes) (n : Nat) : Py Unit :=
  if buf.length < n then .error .insufficientData else .ok ()

/-- pureber.py:76-85 `int2berlen`.  `0x80 | l` is `128 + l` because `l <= 127`. -/
def int2berlen (i : Int) : Py Bytes :=
  if i < 0 then .error .assertionError else
  let e := int2ber i (signed := false)
  if i ≤ 127 then .ok e
  else
    let l := e.length
    if l = 0 then .error .assertionError
    else if 127 < l then .error .assertionError
    else .ok (UInt8.ofNat (128 + l) :: e)

/-- pureber.py:62-73 `berDecodeLength(m, offset)`, returning `(length, lengthLength)`.
`l & 0x80` and `l & 0x7F` are taken of a signed one-byte value; on two's complement they are
`128 ≤ l mod 256` and `l mod 128`.  In the short form `l` is in `0..127`, in the long form it is an unsigned
big-endian number, so the result is returned as a `Nat`. -/
def berDecodeLength (m : Bytes) (offset : Nat) : Py (Nat × Nat) := do
  let l ← ber2int ((m.drop offset).take 1)
  if l % 256 ≥ 128 then
    let ll := 1 + (l % 128).toNat
    need m (offset + ll)
    let l ← ber2int ((m.drop (offset + 1)).take (ll - 1)) (signed := false)
    return (l.toNat, ll)
  else
    return (l.toNat, 1)

end Verif.Ber
