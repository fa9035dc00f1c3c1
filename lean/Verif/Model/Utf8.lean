import Verif.Model.Basic
/-
Python's strict UTF-8 codec.  It belongs to the Python runtime, not to /repo; the definitions follow RFC 3629.
-/
namespace Verif.Utf8

/-- The UTF-8 form of one character. -/
def encodeChar (c : Char) : Bytes :=
  let n := c.toNat
  if n < 0x80 then [UInt8.ofNat n]
  else if n < 0x800 then [UInt8.ofNat (0xC0 + n / 64), UInt8.ofNat (0x80 + n % 64)]
  else if n < 0x10000 then
    [UInt8.ofNat (0xE0 + n / 4096), UInt8.ofNat (0x80 + n / 64 % 64), UInt8.ofNat (0x80 + n % 64)]
  else
    [UInt8.ofNat (0xF0 + n / 262144), UInt8.ofNat (0x80 + n / 4096 % 64), UInt8.ofNat (0x80 + n / 64 % 64),
      UInt8.ofNat (0x80 + n % 64)]

/-- `s.encode("utf-8")` -/
def encode (s : Str) : Bytes := s.flatMap encodeChar

/-- Accept the character only if the octets read are its UTF-8 form (this rejects overlong forms and surrogates). -/
def accept (n : Nat) (used rest : Bytes) : Option (Char × Bytes) :=
  if encodeChar (Char.ofNat n) = used then some (Char.ofNat n, rest) else none

/-- The payload of a continuation octet. -/
def low6 (b : UInt8) : Nat := b.toNat % 64

/-- Read one character. -/
def decodeChar : Bytes → Option (Char × Bytes)
  | [] => none
  | b0 :: r =>
    if b0 < 0x80 then some (Char.ofNat b0.toNat, r)
    else if b0 < 0xE0 then
      match r with
      | b1 :: r => accept (b0.toNat % 32 * 64 + low6 b1) [b0, b1] r
      | _ => none
    else if b0 < 0xF0 then
      match r with
      | b1 :: b2 :: r => accept (b0.toNat % 16 * 4096 + low6 b1 * 64 + low6 b2) [b0, b1, b2] r
      | _ => none
    else
      match r with
      | b1 :: b2 :: b3 :: r =>
        accept (b0.toNat % 8 * 262144 + low6 b1 * 4096 + low6 b2 * 64 + low6 b3) [b0, b1, b2, b3] r
      | _ => none

/-- Read characters to the end; the first argument bounds their number. -/
def decodeLoop : Nat → Bytes → Option Str
  | _, [] => some []
  | 0, _ :: _ => none
  | n + 1, b :: bs =>
    match decodeChar (b :: bs) with
    | some (c, r) =>
      match decodeLoop n r with
      | some s => some (c :: s)
      | none => none
    | none => none

/-- `b.decode("utf-8")` -/
def decode (b : Bytes) : Py Str :=
  match decodeLoop b.length b with
  | some s => .ok s
  | none => .error .unicodeError

end Verif.Utf8
