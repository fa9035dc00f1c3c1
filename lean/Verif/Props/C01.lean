import Verif.Lemmas.Ber
/-
C01  BER integers round-trip and are minimal.

Spec vocabulary (`Verif.Spec.bigEndian`, `Verif.Spec.twosComplement`): what an octet string denotes
according to X.690.
-/
namespace Verif.C01
open Verif.Ber Verif.Spec

/-- `ber2int` reads a non-empty octet string as the two's-complement integer it denotes; the empty string is
reported as insufficient data. -/
theorem ber2int_denotes (e : Bytes) :
    ber2int e = (if e = [] then .error .insufficientData else .ok (twosComplement e)) ∧
    ber2int e (signed := false) = (if e = [] then .error .insufficientData else .ok (bigEndian e : Int)) := by
  cases e with
  | nil => simp [ber2int]
  | cons b bs => exact ⟨by simpa using ber2int_signed b bs, by simpa using ber2int_unsigned b bs⟩

example : ber2int [0xFF, 0x7F] = .ok (-129) := by decide

/-- Round trip: decoding the encoding of any integer gives it back. -/
theorem int_roundtrip (i : Int) : ber2int (int2ber i) = .ok i := by
  obtain ⟨b, bs, h1, h2⟩ := int2berLoop_signed i []
  unfold int2ber
  rw [h1, ber2int_signed, h2]
  simp [bigEndian]

example : int2ber (-129) = [0xFF, 0x7F] := by decide +kernel
example : int2ber 128 = [0x00, 0x80] := by decide +kernel

/-- Unsigned round trip for every non-negative integer. -/
theorem unsigned_roundtrip (i : Int) (h : 0 ≤ i) : ber2int (int2ber i false) (signed := false) = .ok i := by
  obtain ⟨b, bs, h1, h2⟩ := int2berLoop_unsigned i [] h
  unfold int2ber
  rw [h1, ber2int_unsigned, h2]
  simp [bigEndian]

example : ber2int (int2ber 65536 false) (signed := false) = .ok 65536 := unsigned_roundtrip _ (by decide)

/-- Minimality: any octet string denoting `i` is at least as long as the encoder's, and one of the same length
is the encoder's. -/
theorem int_minimal (i : Int) (e : Bytes) (hne : e ≠ []) (he : twosComplement e = i) :
    (int2ber i).length ≤ e.length ∧ ((int2ber i).length = e.length → e = int2ber i) := by
  cases e with
  | nil => exact absurd rfl hne
  | cons c cs =>
    have hb := twosComplement_bounds c cs
    rw [he] at hb
    have hl := int2berLoop_signed_length cs.length i [] hb.1 hb.2
    refine ⟨by simpa [int2ber] using hl, ?_⟩
    intro hlen
    obtain ⟨b, bs, h1, h2⟩ := int2berLoop_signed i []
    unfold int2ber at hlen ⊢
    rw [h1] at hlen ⊢
    have hlen' : bs.length = cs.length := by simpa using hlen
    have h2' : twosComplement (b :: bs) = twosComplement (c :: cs) := by
      rw [h2, he]; simp [bigEndian]
    have b1 := bigEndian_lt (b :: bs)
    have b2 := bigEndian_lt (c :: cs)
    refine bigEndian_inj (by simp [hlen']) ?_
    simp only [twosComplement, hlen'] at h2'
    simp only [List.length_cons, hlen'] at b1 b2
    have p : (((256 ^ (cs.length + 1) : Nat)) : Int) = 256 ^ (cs.length + 1) := by
      simp only [Int.natCast_pow, Int.cast_ofNat_Int]
    rw [← p] at h2'
    generalize 256 ^ (cs.length + 1) = q at *
    split at h2' <;> split at h2' <;> omega

/-- A non-minimal encoding really is longer: `00 7F` denotes 127 too. -/
example : twosComplement [0x00, 0x7F] = 127 ∧ (int2ber 127).length = 1 := by
  constructor <;> decide +kernel

/-- Unsigned minimality. -/
theorem unsigned_minimal (e : Bytes) (hne : e ≠ []) :
    (int2ber (bigEndian e) false).length ≤ e.length := by
  cases e with
  | nil => exact absurd rfl hne
  | cons c cs =>
    have hb := bigEndian_lt (c :: cs)
    have h' : ((bigEndian (c :: cs) : Nat) : Int) < ((256 ^ (cs.length + 1) : Nat) : Int) :=
      Int.ofNat_lt.mpr hb
    have hl := int2berLoop_unsigned_length cs.length (bigEndian (c :: cs)) [] (by omega)
      (by simpa only [Int.natCast_pow, Int.cast_ofNat_Int] using h')
    simpa [int2ber] using hl

example : int2ber 255 false = [0xFF] ∧ int2ber 256 false = [1, 0] := by decide +kernel

/-- Every element of an integer's encoding round-trips also through the two operations in the other order:
decoding then re-encoding yields the canonical (shortest) form of the same integer. -/
theorem reencode_canonical (e : Bytes) (i : Int) (h : ber2int e = .ok i) :
    ber2int (int2ber i) = .ok i ∧ (int2ber i).length ≤ e.length := by
  refine ⟨int_roundtrip i, ?_⟩
  cases e with
  | nil => simp [ber2int] at h
  | cons c cs =>
    rw [ber2int_signed] at h
    exact (int_minimal i (c :: cs) (by simp) (Except.ok.inj h)).1

example : ber2int [0x00, 0x00, 0x05] = .ok 5 := by decide

end Verif.C01
