import Verif.Model.Basic
/-
Python's base64 codec as used by /repo (it belongs to the Python runtime), and ldif.py:21-22 `base64_encode`.
-/
namespace Verif.Base64

/-- The character for a six-bit value. -/
def digit (n : Nat) : UInt8 :=
  if n < 26 then UInt8.ofNat (65 + n)
  else if n < 52 then UInt8.ofNat (97 + (n - 26))
  else if n < 62 then UInt8.ofNat (48 + (n - 52))
  else if n = 62 then 43 else 47

/-- The six-bit value of a character. -/
def value (b : UInt8) : Option Nat :=
  let n := b.toNat
  if 65 ≤ n ∧ n ≤ 90 then some (n - 65)
  else if 97 ≤ n ∧ n ≤ 122 then some (n - 97 + 26)
  else if 48 ≤ n ∧ n ≤ 57 then some (n - 48 + 52)
  else if n = 43 then some 62
  else if n = 47 then some 63
  else none

/-- The padding character. -/
def pad : UInt8 := 61

/-- `binascii.b2a_base64` without the final newline. -/
def encode : Bytes → Bytes
  | [] => []
  | [a] => [digit (a.toNat / 4), digit (a.toNat % 4 * 16), pad, pad]
  | [a, b] => [digit (a.toNat / 4), digit (a.toNat % 4 * 16 + b.toNat / 16), digit (b.toNat % 16 * 4), pad]
  | a :: b :: c :: r =>
    digit (a.toNat / 4) :: digit (a.toNat % 4 * 16 + b.toNat / 16) :: digit (b.toNat % 16 * 4 + c.toNat / 64) ::
      digit (c.toNat % 64) :: encode r

/-- The loop of `base64.encodebytes`: one line per 57 octets; the first argument bounds the number of lines. -/
def encodeLines : Nat → Bytes → Bytes
  | 0, _ => []
  | _ + 1, [] => []
  | n + 1, a :: s => encode ((a :: s).take 57) ++ 10 :: encodeLines n ((a :: s).drop 57)

/-- `base64.encodebytes` -/
def encodebytes (s : Bytes) : Bytes := encodeLines s.length s

/-- ldif.py:21-22 `base64_encode`: `b"".join(base64.encodebytes(s).split(b"\n")) + b"\n"`. -/
def ldifEncode (s : Bytes) : Bytes := (encodebytes s).filter (· ≠ 10) ++ [10]

/-- The state of `binascii.a2b_base64` in its default, lenient mode. -/
structure State where
  quad : Nat
  left : Nat
  pads : Nat
  out : Bytes
  deriving DecidableEq, Repr

/-- `binascii.a2b_base64`: characters outside the alphabet are skipped; padding that completes a group ends the input;
an incomplete group raises binascii.Error (a ValueError). -/
def decodeLoop (st : State) : Bytes → Py Bytes
  | [] => if st.quad = 0 then .ok st.out else .error .valueError
  | b :: r =>
    if b = pad then
      if 2 ≤ st.quad then
        if 4 ≤ st.quad + (st.pads + 1) then .ok st.out else decodeLoop { st with pads := st.pads + 1 } r
      else decodeLoop st r
    else
      match value b with
      | none => decodeLoop st r
      | some v =>
        if st.quad = 0 then decodeLoop ⟨1, v, 0, st.out⟩ r
        else if st.quad = 1 then decodeLoop ⟨2, v % 16, 0, st.out ++ [UInt8.ofNat (st.left * 4 + v / 16)]⟩ r
        else if st.quad = 2 then decodeLoop ⟨3, v % 4, 0, st.out ++ [UInt8.ofNat (st.left * 16 + v / 4)]⟩ r
        else decodeLoop ⟨0, 0, 0, st.out ++ [UInt8.ofNat (st.left * 64 + v)]⟩ r

/-- `base64.decodebytes` -/
def decodebytes (s : Bytes) : Py Bytes := decodeLoop ⟨0, 0, 0, []⟩ s

end Verif.Base64
