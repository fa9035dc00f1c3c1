import Verif.Lemmas.Base64
/-
C28  Base64 values in LDIF decode to the original bytes.
-/
namespace Verif.C28
open Verif.Base64

/-- Decoding what was written gives the same octets. -/
theorem decode_encode (s : Bytes) : decodebytes (ldifEncode s) = .ok s := by
  rw [ldifEncode_eq]
  unfold decodebytes
  rw [← decodeLoop_filter, List.filter_append]
  rw [List.filter_eq_self.mpr (by intro x hx; simpa using encode_noNewline _ x hx)]
  simp only [List.filter_cons_of_neg, ne_eq, not_true_eq_false, decide_false, Bool.false_eq_true, not_false_eq_true,
    List.filter_nil, List.append_nil]
  rw [decodeLoop_encode]; rfl

/-- The same for the multi-line form used for passwords. -/
theorem decode_encodebytes (s : Bytes) : decodebytes (encodebytes s) = .ok s := decodebytes_encodebytes s

/-- The written form is one line of base64 characters. -/
theorem one_line (s : Bytes) : ∃ line, ldifEncode s = line ++ [10] ∧ ∀ b ∈ line,
    (65 ≤ b.toNat ∧ b.toNat ≤ 90) ∨ (97 ≤ b.toNat ∧ b.toNat ≤ 122) ∨ (48 ≤ b.toNat ∧ b.toNat ≤ 57) ∨
      b.toNat = 43 ∨ b.toNat = 47 ∨ b.toNat = 61 := by
  refine ⟨encode s, ldifEncode_eq s, fun b hb => ?_⟩
  rcases encode_alphabet s b hb with ⟨n, hn, rfl⟩ | rfl
  · have : ∀ m : Fin 64, (65 ≤ (digit m).toNat ∧ (digit m).toNat ≤ 90) ∨ (97 ≤ (digit m).toNat ∧ (digit m).toNat ≤ 122) ∨
      (48 ≤ (digit m).toNat ∧ (digit m).toNat ≤ 57) ∨ (digit m).toNat = 43 ∨ (digit m).toNat = 47 ∨ (digit m).toNat = 61 := by
      decide
    exact this ⟨n, hn⟩
  · decide

/-- The length of the written form: four characters per started group of three octets, and the newline. -/
theorem length_encode (s : Bytes) : (ldifEncode s).length = 4 * ((s.length + 2) / 3) + 1 := by
  rw [ldifEncode_eq, List.length_append]
  congr 1
  fun_induction encode s with
  | case1 => rfl
  | case2 => simp
  | case3 => simp
  | case4 a b c r ih => simp only [List.length_cons, ih]; omega

/-- Different octet strings are written differently. -/
theorem encode_injective (s t : Bytes) (h : ldifEncode s = ldifEncode t) : s = t := by
  have h1 := decode_encode s
  rw [h, decode_encode t] at h1
  cases h1; rfl

example : ldifEncode [0, 255, 62, 63] = "AP8+Pw==\n".toList.map (fun c => UInt8.ofNat c.toNat) := by decide +kernel
example : decodebytes ("A P8+\nPw==".toList.map (fun c => UInt8.ofNat c.toNat)) = .ok [0, 255, 62, 63] := by decide +kernel

end Verif.C28
