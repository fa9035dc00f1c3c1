import Verif.Model.Base64
/-
Base64 decoding inverts encoding.
-/
namespace Verif.Base64

theorem u8 (n : Nat) (h : n < 256) : (UInt8.ofNat n).toNat = n := by simp [Nat.mod_eq_of_lt h]

theorem value_digit (n : Nat) (h : n < 64) : value (digit n) = some n := by
  have : ∀ m : Fin 64, value (digit m.val) = some m.val := by decide
  exact this ⟨n, h⟩

theorem digit_ne_pad (n : Nat) : digit n ≠ pad := by
  unfold digit pad
  intro e
  have e := congrArg UInt8.toNat e
  split at e
  · rw [u8 _ (by omega)] at e; simp at e; omega
  · split at e
    · rw [u8 _ (by omega)] at e; simp at e; omega
    · split at e
      · rw [u8 _ (by omega)] at e; simp at e; omega
      · split at e <;> simp at e

theorem digit_ne_newline (n : Nat) : digit n ≠ 10 := by
  unfold digit
  intro e
  have e := congrArg UInt8.toNat e
  split at e
  · rw [u8 _ (by omega)] at e; simp at e; omega
  · split at e
    · rw [u8 _ (by omega)] at e; simp at e; omega
    · split at e
      · rw [u8 _ (by omega)] at e; simp at e; omega
      · split at e <;> simp at e

/-- Reading one digit. -/
theorem step (st : State) (n : Nat) (hn : n < 64) (r : Bytes) : decodeLoop st (digit n :: r) =
    if st.quad = 0 then decodeLoop ⟨1, n, 0, st.out⟩ r
    else if st.quad = 1 then decodeLoop ⟨2, n % 16, 0, st.out ++ [UInt8.ofNat (st.left * 4 + n / 16)]⟩ r
    else if st.quad = 2 then decodeLoop ⟨3, n % 4, 0, st.out ++ [UInt8.ofNat (st.left * 16 + n / 4)]⟩ r
    else decodeLoop ⟨0, 0, 0, st.out ++ [UInt8.ofNat (st.left * 64 + n)]⟩ r := by
  simp only [decodeLoop, if_neg (digit_ne_pad n), value_digit n hn]

theorem lt256 (a : UInt8) : a.toNat < 256 := a.toNat_lt

theorem ofNat_self (a : UInt8) (n : Nat) (h : n = a.toNat) : UInt8.ofNat n = a := by rw [h]; simp

theorem decodeLoop_encode (s out : Bytes) : decodeLoop ⟨0, 0, 0, out⟩ (encode s) = .ok (out ++ s) := by
  fun_induction encode s generalizing out with
  | case1 => simp [decodeLoop]
  | case2 a =>
    have := lt256 a
    rw [step _ _ (by omega), if_pos rfl, step _ _ (by omega), if_neg (by simp), if_pos rfl]
    rw [ofNat_self a _ (by simp only; omega)]
    simp [decodeLoop]
  | case3 a b =>
    have := lt256 a
    have := lt256 b
    rw [step _ _ (by omega), if_pos rfl, step _ _ (by omega), if_neg (by simp), if_pos rfl, step _ _ (by omega),
      if_neg (by simp), if_neg (by simp), if_pos rfl]
    rw [ofNat_self a _ (by simp only; omega), ofNat_self b _ (by simp only; omega)]
    simp [decodeLoop]
  | case4 a b c r ih =>
    have := lt256 a
    have := lt256 b
    have := lt256 c
    rw [step _ _ (by omega), if_pos rfl, step _ _ (by omega), if_neg (by simp), if_pos rfl, step _ _ (by omega),
      if_neg (by simp), if_neg (by simp), if_pos rfl, step _ _ (by omega), if_neg (by simp), if_neg (by simp),
      if_neg (by simp)]
    rw [ih]
    simp only [List.append_assoc, List.cons_append, List.nil_append]
    rw [ofNat_self a _ (by omega), ofNat_self b _ (by omega), ofNat_self c _ (by omega)]

/-- Newlines are ignored. -/
theorem decodeLoop_filter (st : State) (s : Bytes) : decodeLoop st (s.filter (· ≠ 10)) = decodeLoop st s := by
  induction s generalizing st with
  | nil => rfl
  | cons b s ih =>
    by_cases hb : b = 10
    · subst hb
      rw [List.filter_cons_of_neg (by simp), ih]
      have h1 : (10 : UInt8) ≠ pad := by decide
      have h2 : value 10 = none := by decide
      conv => rhs; rw [decodeLoop]
      rw [if_neg h1, h2]
    · rw [List.filter_cons_of_pos (by simpa using hb)]
      simp only [decodeLoop, ih]

theorem encode_noNewline (s : Bytes) : ∀ b ∈ encode s, b ≠ 10 := by
  have hp : pad ≠ 10 := by decide
  fun_induction encode s with
  | case1 => simp
  | case2 a => simp [digit_ne_newline, hp]
  | case3 a b => simp [digit_ne_newline, hp]
  | case4 a b c r ih =>
    intro x hx
    simp only [List.mem_cons] at hx
    rcases hx with rfl | rfl | rfl | rfl | hx
    · exact digit_ne_newline _
    · exact digit_ne_newline _
    · exact digit_ne_newline _
    · exact digit_ne_newline _
    · exact ih x hx

/-- Encoding splits at multiples of three. -/
theorem encode_append (k : Nat) (s t : Bytes) (h : s.length = 3 * k) : encode (s ++ t) = encode s ++ encode t := by
  induction k generalizing s with
  | zero => simp at h; subst h; rfl
  | succ k ih =>
    match s, h with
    | a :: b :: c :: r, h =>
      simp only [List.length_cons] at h
      simp only [List.cons_append, encode]
      rw [ih r (by omega)]

theorem encodeLines_filter (n : Nat) (s : Bytes) (h : s.length ≤ n) : (encodeLines n s).filter (· ≠ 10) = encode s := by
  induction n generalizing s with
  | zero => simp at h; subst h; rfl
  | succ n ih =>
    cases s with
    | nil => rfl
    | cons a s =>
      simp only [encodeLines, List.filter_append]
      rw [List.filter_cons_of_neg (by simp), ih _ (by simp at h ⊢; omega)]
      rw [List.filter_eq_self.mpr (by intro x hx; simpa using encode_noNewline _ x hx)]
      by_cases hl : (a :: s).length ≤ 57
      · rw [List.take_of_length_le hl, List.drop_of_length_le hl]; simp [encode]
      · rw [← encode_append 19 _ _ (by rw [List.length_take]; omega), List.take_append_drop]

theorem encodebytes_filter (s : Bytes) : (encodebytes s).filter (· ≠ 10) = encode s :=
  encodeLines_filter _ s (Nat.le_refl _)

theorem decodebytes_encodebytes (s : Bytes) : decodebytes (encodebytes s) = .ok s := by
  unfold decodebytes
  rw [← decodeLoop_filter, encodebytes_filter, decodeLoop_encode]
  rfl

theorem ldifEncode_eq (s : Bytes) : ldifEncode s = encode s ++ [10] := by
  unfold ldifEncode; rw [encodebytes_filter]

/-- Octets of the base64 alphabet, padding included. -/
def Alphabet (b : UInt8) : Prop := (∃ n, n < 64 ∧ b = digit n) ∨ b = pad

theorem encode_alphabet (s : Bytes) : ∀ b ∈ encode s, Alphabet b := by
  fun_induction encode s with
  | case1 => simp
  | case2 a =>
    have := lt256 a
    intro x hx
    simp only [List.mem_cons, List.not_mem_nil, or_false] at hx
    rcases hx with rfl | rfl | rfl | rfl
    · exact .inl ⟨_, by omega, rfl⟩
    · exact .inl ⟨_, by omega, rfl⟩
    · exact .inr rfl
    · exact .inr rfl
  | case3 a b =>
    have := lt256 a
    have := lt256 b
    intro x hx
    simp only [List.mem_cons, List.not_mem_nil, or_false] at hx
    rcases hx with rfl | rfl | rfl | rfl
    · exact .inl ⟨_, by omega, rfl⟩
    · exact .inl ⟨_, by omega, rfl⟩
    · exact .inl ⟨_, by omega, rfl⟩
    · exact .inr rfl
  | case4 a b c r ih =>
    have := lt256 a
    have := lt256 b
    have := lt256 c
    intro x hx
    simp only [List.mem_cons] at hx
    rcases hx with rfl | rfl | rfl | rfl | hx
    · exact .inl ⟨_, by omega, rfl⟩
    · exact .inl ⟨_, by omega, rfl⟩
    · exact .inl ⟨_, by omega, rfl⟩
    · exact .inl ⟨_, by omega, rfl⟩
    · exact ih x hx

end Verif.Base64
