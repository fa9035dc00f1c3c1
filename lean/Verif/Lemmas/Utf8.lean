import Verif.Model.Utf8
/-
The UTF-8 codec: encoding and decoding are inverse.
-/
namespace Verif.Utf8

theorem u8 (n : Nat) (h : n < 256) : (UInt8.ofNat n).toNat = n := by simp [Nat.mod_eq_of_lt h]

theorem char_ofNat_toNat (c : Char) : Char.ofNat c.toNat = c := by simp

theorem toNat_ofNat_small (n : Nat) (h : n < 0xd800) : (Char.ofNat n).toNat = n := by
  have hv : n.isValidChar := Or.inl h
  simp only [Char.ofNat, hv, dif_pos, Char.toNat]
  rfl

theorem lt_u8 (n k : Nat) (h : n < 256) (hk : k < 256) : UInt8.ofNat n < UInt8.ofNat k ↔ n < k := by
  rw [UInt8.lt_iff_toNat_lt, u8 n h, u8 k hk]

theorem decodeChar_encodeChar (c : Char) (r : Bytes) : decodeChar (encodeChar c ++ r) = some (c, r) := by
  have hlt : c.toNat < 0x110000 := by
    have := c.valid
    rcases this with h | ⟨_, h⟩ <;> simp only [Char.toNat] <;> omega
  have key : ∀ n used, n = c.toNat → used = encodeChar c → accept n used r = some (c, r) := by
    intro n used h1 h2
    subst h1 h2
    simp [accept]
  have e : encodeChar c = encodeChar c := rfl
  conv at e => lhs; unfold encodeChar
  simp only at e
  split at e
  · rename_i h
    rw [← e]
    simp only [List.cons_append, List.nil_append, decodeChar]
    rw [if_pos (by rw [show (0x80 : UInt8) = UInt8.ofNat 0x80 from rfl, lt_u8 _ _ (by omega) (by omega)]; exact h)]
    rw [u8 _ (by omega)]
    simp
  · split at e
    · rename_i h1 h
      have hh := e
      rw [← e]
      simp only [List.cons_append, List.nil_append, decodeChar]
      rw [if_neg (by rw [show (0x80 : UInt8) = UInt8.ofNat 0x80 from rfl, lt_u8 _ _ (by omega) (by omega)]; omega)]
      rw [if_pos (by rw [show (0xE0 : UInt8) = UInt8.ofNat 0xE0 from rfl, lt_u8 _ _ (by omega) (by omega)]; omega)]
      refine key _ _ ?_ hh
      rw [low6, u8 _ (by omega), u8 _ (by omega)]
      omega
    · split at e
      · rename_i h1 h2 h
        have hh := e
        rw [← e]
        simp only [List.cons_append, List.nil_append, decodeChar]
        rw [if_neg (by rw [show (0x80 : UInt8) = UInt8.ofNat 0x80 from rfl, lt_u8 _ _ (by omega) (by omega)]; omega)]
        rw [if_neg (by rw [show (0xE0 : UInt8) = UInt8.ofNat 0xE0 from rfl, lt_u8 _ _ (by omega) (by omega)]; omega)]
        rw [if_pos (by rw [show (0xF0 : UInt8) = UInt8.ofNat 0xF0 from rfl, lt_u8 _ _ (by omega) (by omega)]; omega)]
        refine key _ _ ?_ hh
        rw [low6, low6, u8 _ (by omega), u8 _ (by omega), u8 _ (by omega)]
        omega
      · rename_i h1 h2 h
        have hh := e
        rw [← e]
        simp only [List.cons_append, List.nil_append, decodeChar]
        rw [if_neg (by rw [show (0x80 : UInt8) = UInt8.ofNat 0x80 from rfl, lt_u8 _ _ (by omega) (by omega)]; omega)]
        rw [if_neg (by rw [show (0xE0 : UInt8) = UInt8.ofNat 0xE0 from rfl, lt_u8 _ _ (by omega) (by omega)]; omega)]
        rw [if_neg (by rw [show (0xF0 : UInt8) = UInt8.ofNat 0xF0 from rfl, lt_u8 _ _ (by omega) (by omega)]; omega)]
        refine key _ _ ?_ hh
        rw [low6, low6, low6, u8 _ (by omega), u8 _ (by omega), u8 _ (by omega), u8 _ (by omega)]
        omega

theorem encodeChar_ne_nil (c : Char) : encodeChar c ≠ [] := by
  unfold encodeChar
  simp only
  split
  · simp
  · split
    · simp
    · split <;> simp

theorem encodeChar_length_pos (c : Char) : 0 < (encodeChar c).length :=
  List.length_pos_iff.mpr (encodeChar_ne_nil c)

theorem accept_sound {n : Nat} {used rest r : Bytes} {c : Char} (h : accept n used rest = some (c, r)) :
    used ++ rest = encodeChar c ++ r := by
  unfold accept at h
  split at h
  · rename_i e; cases h; rw [e]
  · cases h

theorem decodeChar_sound {b : Bytes} {c : Char} {r : Bytes} (h : decodeChar b = some (c, r)) : b = encodeChar c ++ r := by
  unfold decodeChar at h
  split at h
  · cases h
  · rename_i b0 t
    split at h
    · rename_i hb
      cases h
      have hb' : b0.toNat < 128 := by simpa [UInt8.lt_iff_toNat_lt] using hb
      have e : (Char.ofNat b0.toNat).toNat = b0.toNat := by
        exact toNat_ofNat_small _ (by omega)
      unfold encodeChar
      simp only [e]
      rw [if_pos hb']
      simp
    · split at h
      · split at h
        · simpa using accept_sound h
        · cases h
      · split at h
        · split at h
          · simpa using accept_sound h
          · cases h
        · split at h
          · simpa using accept_sound h
          · cases h

theorem decodeLoop_encode (s : Str) (n : Nat) (h : (encode s).length ≤ n) : decodeLoop n (encode s) = some s := by
  induction s generalizing n with
  | nil => simp [encode, decodeLoop]
  | cons c s ih =>
    have e : encode (c :: s) = encodeChar c ++ encode s := rfl
    have hp := encodeChar_length_pos c
    rw [e, List.length_append] at h
    obtain ⟨m, rfl⟩ : ∃ m, n = m + 1 := ⟨n - 1, by omega⟩
    have hd := decodeChar_encodeChar c (encode s)
    rw [e]
    cases hx : encodeChar c ++ encode s with
    | nil => simp [encodeChar_ne_nil] at hx
    | cons b t =>
      rw [hx] at hd
      simp only [decodeLoop, hd]
      rw [ih m (by omega)]

theorem decodeLoop_sound (n : Nat) (b : Bytes) (s : Str) (h : decodeLoop n b = some s) : encode s = b := by
  induction n generalizing b s with
  | zero =>
    cases b with
    | nil => cases h; rfl
    | cons x b => cases h
  | succ n ih =>
    cases b with
    | nil => cases h; rfl
    | cons x b =>
      simp only [decodeLoop] at h
      split at h
      · rename_i c r hc
        split at h
        · rename_i t ht
          cases h
          rw [decodeChar_sound hc, ← ih _ _ ht]; rfl
        · cases h
      · cases h

theorem decode_encode (s : Str) : decode (encode s) = .ok s := by
  unfold decode; rw [decodeLoop_encode s _ (Nat.le_refl _)]

theorem encode_decode {b : Bytes} {s : Str} (h : decode b = .ok s) : encode s = b := by
  unfold decode at h
  split at h
  · rename_i t ht; cases h; exact decodeLoop_sound _ _ _ ht
  · cases h

theorem decode_error {b : Bytes} {e : PyErr} (h : decode b = .error e) : e = .unicodeError := by
  unfold decode at h
  split at h
  · cases h
  · cases h; rfl

theorem encode_injective {s t : Str} (h : encode s = encode t) : s = t := by
  have h1 := decode_encode s
  rw [h, decode_encode t] at h1
  cases h1; rfl

theorem encode_append (s t : Str) : encode (s ++ t) = encode s ++ encode t := by simp [encode]

/-- A text in ASCII. -/
def AsciiText (s : Str) : Prop := ∀ c ∈ s, c.toNat < 128

/-- Octets in ASCII. -/
def AsciiBytes (b : Bytes) : Prop := ∀ x ∈ b, x.toNat < 128

instance (s : Str) : Decidable (AsciiText s) := inferInstanceAs (Decidable (∀ c ∈ s, c.toNat < 128))
instance (b : Bytes) : Decidable (AsciiBytes b) := inferInstanceAs (Decidable (∀ x ∈ b, x.toNat < 128))

theorem encode_ascii {s : Str} (h : AsciiText s) : encode s = s.map fun c => UInt8.ofNat c.toNat := by
  induction s with
  | nil => rfl
  | cons c s ih =>
    have e : encode (c :: s) = encodeChar c ++ encode s := rfl
    rw [e, ih (fun x hx => h x (by simp [hx]))]
    simp [encodeChar, h c (by simp)]

theorem encode_asciiBytes {s : Str} (h : AsciiText s) : AsciiBytes (encode s) := by
  rw [encode_ascii h]
  intro x hx
  simp only [List.mem_map] at hx
  obtain ⟨c, hc, rfl⟩ := hx
  have := h c hc
  rw [u8 _ (by omega)]; exact this

theorem decode_ascii {b : Bytes} (h : AsciiBytes b) : decode b = .ok (b.map fun x => Char.ofNat x.toNat) := by
  have ht : AsciiText (b.map fun x => Char.ofNat x.toNat) := by
    intro c hc
    simp only [List.mem_map] at hc
    obtain ⟨x, hx, rfl⟩ := hc
    have := h x hx
    rw [toNat_ofNat_small _ (by omega)]; exact this
  have e : encode (b.map fun x => Char.ofNat x.toNat) = b := by
    rw [encode_ascii ht, List.map_map]
    conv => rhs; rw [← List.map_id b]
    apply List.map_congr_left
    intro x hx
    have := h x hx
    simp only [Function.comp, id]
    rw [toNat_ofNat_small _ (by omega)]
    simp
  conv => lhs; rw [← e]
  exact decode_encode _

end Verif.Utf8
