import Verif.Lemmas.Element
/-
C03  Decoding consumes exactly one element and ignores what follows.
-/
namespace Verif.C03
open Verif.Ldap Verif.Spec

/-- If a buffer starts with a complete element of `n` octets, the decoder's verdict - object, error, number of bytes
consumed - is its verdict on those `n` octets alone, whatever follows them. -/
theorem decode_prefix_determined (ctx : Ctx) (m rest : Bytes) (n : Nat) (h : StartsWithElement m n) :
    berDecodeObject ctx (m ++ rest) = berDecodeObject ctx (m.take n) := by
  have hw := startsWith_take h
  have : m ++ rest = m.take n ++ (m.drop n ++ rest) := by
    rw [← List.append_assoc, List.take_append_drop]
  rw [this, berDecodeObject_append ctx hw]

example : StartsWithElement [0x02, 0x01, 0x2A, 0xFF] 3 := ⟨2, 1, rfl, rfl, by decide⟩

/-- If it succeeds it consumes exactly the header and the announced content. -/
theorem decode_consumes_element (ctx : Ctx) (m : Bytes) (n k : Nat) (o : Option Obj)
    (h : StartsWithElement m n) (hd : berDecodeObject ctx m = .ok (o, k)) : k = n := by
  have hw := startsWith_take h
  have h1 := decode_prefix_determined ctx m [] n h
  rw [List.append_nil] at h1
  rw [h1] at hd
  have := berDecodeObject_consumes ctx hw hd
  obtain ⟨_, _, _, _, hle⟩ := h
  rw [this, List.length_take]; omega

example : berDecodeObject (.base .ber) [0x02, 0x01, 0x2A, 0xFF] = .ok (some (.int .integer 2 42), 3) := by
  rfl

/-- Conversely the decoder yields a value (or skips) only for buffers that start with a complete element. -/
theorem decode_only_complete (ctx : Ctx) (m : Bytes) (o : Option Obj) (k : Nat) (hm : m ≠ [])
    (hd : berDecodeObject ctx m = .ok (o, k)) : StartsWithElement m k := by
  cases hh : header m with
  | none => rw [berDecodeObject_no_header ctx hm hh] at hd; cases hd
  | some x =>
    obtain ⟨h, c⟩ := x
    by_cases hs : m.length < h + c
    · rw [berDecodeObject_short ctx hh hs] at hd; cases hd
    · have h1 : StartsWithElement m (h + c) := ⟨h, c, hh, rfl, by omega⟩
      have := decode_consumes_element ctx m _ k o h1 hd
      rw [this]; exact h1

end Verif.C03
