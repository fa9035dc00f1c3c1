import Verif.Lemmas.Ber
/-
C02  BER length octets round-trip and are self-delimiting.
-/
namespace Verif.C02
open Verif.Ber Verif.Spec

/-- For every length the encoder accepts, reading the length octets back - at any offset, followed by
anything - yields that length and the exact number of length octets. -/
theorem length_roundtrip (n : Nat) (w : Bytes) (h : int2berlen n = .ok w) (pre rest : Bytes) :
    berDecodeLength (pre ++ w ++ rest) pre.length = .ok (n, w.length) := by
  rw [List.append_assoc]; exact berDecodeLength_int2berlen h pre rest

example : int2berlen 300 = .ok [0x82, 0x01, 0x2C] := by decide +kernel

/-- The encoder accepts every length below `256 ^ 127`, i.e. all lengths that occur in practice. -/
theorem length_total (n : Nat) (h : n < 256 ^ 127) : ∃ w, int2berlen n = .ok w := int2berlen_total n h

example : (300 : Nat) < 256 ^ 127 := by decide

/-- Shape of the length octets (X.690 8.1.3): a single octet up to 127, otherwise `0x80 + k` followed by
the `k`-octet big-endian number. -/
theorem length_shape (n : Nat) (w : Bytes) (h : int2berlen n = .ok w) :
    (n ≤ 127 → w = [UInt8.ofNat n]) ∧
    (127 < n → ∃ k body, w = UInt8.ofNat (128 + k) :: body ∧ body.length = k ∧ 1 ≤ k ∧ k ≤ 127 ∧
      bigEndian body = n) := by
  rcases int2berlen_ok h with ⟨hn, rfl⟩ | ⟨hn, b, bs, hl, rfl, hv⟩
  · exact ⟨fun _ => rfl, fun h => by omega⟩
  · exact ⟨fun h => by omega, fun _ => ⟨bs.length + 1, b :: bs, rfl, rfl, by omega, hl, hv⟩⟩

/-- Distinct lengths have distinct octets (injectivity, a corollary of self-delimitation). -/
theorem length_injective (n m : Nat) (w : Bytes) (hn : int2berlen n = .ok w) (hm : int2berlen m = .ok w) :
    n = m := by
  have h1 := berDecodeLength_int2berlen hn [] []
  have h2 := berDecodeLength_int2berlen hm [] []
  rw [h1] at h2
  exact (Prod.mk.inj (Except.ok.inj h2)).1

example : int2berlen 127 = .ok [0x7F] ∧ int2berlen 128 = .ok [0x81, 0x80] := by decide +kernel

/-- Decoding never reads past the bytes it was given: whenever a length is decoded, the reported number of length
octets fits into the input, and an empty input at the offset is reported as insufficient data. -/
theorem decode_fits (m : Bytes) (off n ll : Nat) (h : berDecodeLength m off = .ok (n, ll)) :
    1 ≤ ll ∧ off + ll ≤ m.length := by
  unfold berDecodeLength at h
  cases hd : (m.drop off).take 1 with
  | nil => simp [hd, ber2int, bind, Except.bind] at h
  | cons b bs =>
    have hlen : off < m.length := by
      have : ((m.drop off).take 1).length = (b :: bs).length := by rw [hd]
      simp at this; omega
    rw [hd, ber2int_signed] at h
    simp only [bind, Except.bind, pure, Except.pure] at h
    split at h
    · split at h
      · cases h
      · rename_i hneed
        unfold need at hneed
        split at hneed
        · cases hneed
        · split at h
          · cases h
          · have := Except.ok.inj h
            simp only [Prod.mk.injEq] at this
            obtain ⟨_, rfl⟩ := this
            omega
    · have := Except.ok.inj h
      simp only [Prod.mk.injEq] at this
      omega

example : berDecodeLength [0x30, 0x81, 0xC8, 1, 2] 1 = .ok (200, 2) := by decide

end Verif.C02
