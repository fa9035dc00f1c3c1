import Verif.Model.Decimal
import Verif.Model.Text
/-
Model of /repo/ldaptor/dns.py.

An address or mask is given either as the text of an integer or in the dotted form; the model takes the integer, or the
four octets that `inet_aton` reads from the text.
-/
namespace Verif.Dns

/-- The argument of `aton` after `int(ip)` or `inet_aton(ip)` has read it. -/
inductive Addr where
  | num (i : Int)
  | quad (a b c d : UInt8)
  deriving DecidableEq, Repr

/-- dns.py:7-9 `aton_octets`, after `inet_aton`: `struct.unpack("!I", s)`. -/
def atonOctets (a b c d : UInt8) : Nat := ((a.toNat * 256 + b.toNat) * 256 + c.toNat) * 256 + d.toNat

/-- dns.py:14-17: the loop of `aton_numbits`, for a count that is not negative. -/
def numbitsLoop : Nat → Nat → Nat
  | n, 0 => n
  | n, num + 1 => numbitsLoop ((n >>> 1) ||| 2 ^ 31) num

/-- dns.py:12-18 `aton_numbits`; a negative count does not enter the loop. -/
def atonNumbits (num : Int) : Nat := numbitsLoop 0 num.toNat

/-- dns.py:21-27 `aton` -/
def aton : Addr → Nat
  | .num i => atonNumbits i
  | .quad a b c d => atonOctets a b c d

/-- dns.py:30-33 `ntoa`, before `inet_ntoa` prints the octets; `struct.pack` refuses what does not fit in 32 bits. -/
def ntoa (n : Nat) : Py (List UInt8) :=
  if n < 2 ^ 32 then .ok [UInt8.ofNat (n / 2 ^ 24), UInt8.ofNat (n / 2 ^ 16), UInt8.ofNat (n / 2 ^ 8), UInt8.ofNat n] else .error .other

/-- dns.py:40-46: the loop of `netmaskToNumbits`, where `k` is the number of bits still to come: `i` is `2 ^ (k - 1)`, and 0 for
`k = 0`. -/
def maskLoop : Nat → Nat → Nat → Py Nat
  | _, 0, n => .ok n
  | bits, k + 1, n =>
    if bits = 0 then .ok n
    else if bits &&& 2 ^ k = 0 then .error .other
    else maskLoop (bits - 2 ^ k) k (n + 1)

/-- dns.py:36-47 `netmaskToNumbits` -/
def netmaskToNumbits (netmask : Addr) : Py Nat := maskLoop (aton netmask) 32 0

/-- `l[-n:]` for `n ≥ 0`: note that `l[-0:]` is all of `l`. -/
def lastN {α : Type} (n : Nat) (l : List α) : List α := if n = 0 then l else l.drop (l.length - n)

/-- The text of an octet, as `inet_ntoa` prints it. -/
def octetText (o : UInt8) : Str := Decimal.ofInt o.toNat

/-- dns.py:50-68 `ptrSoaName` -/
def ptrSoaName (ip netmask : Addr) : Py Str := do
  let net := aton ip &&& aton netmask
  let nmBits ← netmaskToNumbits netmask
  let bytes := nmBits / 8
  let bits := nmBits % 8
  let quad ← ntoa net
  let octets := (quad.map octetText).reverse
  let parts ←
    if bits = 0 then (.ok (lastN bytes octets) : Py (List Str))
    else
      match (octets.reverse)[bytes]? with
      | none => .error .indexError
      | some part => .ok ((part ++ ['/'] ++ Decimal.ofInt nmBits) :: lastN bytes octets)
  return joinWith ['.'] parts ++ ".in-addr.arpa.".toList

end Verif.Dns
