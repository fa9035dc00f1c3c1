import Verif.Lemmas.Utf8
import Verif.Model.Entry
/-
Lower-casing, and the two forms of a string.
-/
namespace Verif

/-- What is assumed of Python's Unicode tables: on ASCII text, `lower` only changes the letters A-Z. -/
structure Sane (U : Unicode) : Prop where
  ascii : ∀ s : Str, Utf8.AsciiText s → U.lower s = s.map Char.toLower

theorem asciiTables_sane : Sane asciiTables := ⟨fun _ _ => rfl⟩

namespace PyStr
open Utf8

theorem toNat_toLower (c : Char) : c.toLower.toNat = if 65 ≤ c.toNat ∧ c.toNat ≤ 90 then c.toNat + 32 else c.toNat := by
  unfold Char.toLower
  have e1 : (c.val ≥ 'A'.val ∧ c.val ≤ 'Z'.val) ↔ (65 ≤ c.toNat ∧ c.toNat ≤ 90) := by
    simp only [ge_iff_le, UInt32.le_iff_toNat_le, Char.toNat]
    exact Iff.rfl
  split
  · rename_i h
    rw [if_pos (e1.mp h)]
    have := (e1.mp h).2
    show (c.val + ('a'.val - 'A'.val)).toNat = c.val.toNat + 32
    have h2 : c.val.toNat ≤ 90 := this
    rw [UInt32.toNat_add, show ('a'.val - 'A'.val).toNat = 32 from rfl]
    omega
  · rename_i h
    rw [if_neg (fun x => h (e1.mpr x))]

theorem toNat_lowerByte (b : UInt8) : (lowerByte b).toNat = if 65 ≤ b.toNat ∧ b.toNat ≤ 90 then b.toNat + 32 else b.toNat := by
  unfold lowerByte
  have e1 : (65 ≤ b ∧ b ≤ 90) ↔ (65 ≤ b.toNat ∧ b.toNat ≤ 90) := by
    simp only [UInt8.le_iff_toNat_le]
    exact Iff.rfl
  split
  · rename_i h
    rw [if_pos (e1.mp h)]
    have := (e1.mp h).2
    rw [UInt8.toNat_add]
    simp
    omega
  · rename_i h
    rw [if_neg (fun x => h (e1.mpr x))]

theorem lowerByte_high {b : UInt8} (h : 128 ≤ b.toNat) : lowerByte b = b := by
  apply UInt8.toNat_inj.mp
  rw [toNat_lowerByte, if_neg (by omega)]

theorem lowerByte_idem (b : UInt8) : lowerByte (lowerByte b) = lowerByte b := by
  apply UInt8.toNat_inj.mp
  rw [toNat_lowerByte, toNat_lowerByte]
  split <;> (try split) <;> omega

theorem toLower_idem (c : Char) : c.toLower.toLower = c.toLower := by
  apply Char.ext
  apply UInt32.toNat_inj.mp
  have h1 := toNat_toLower c.toLower
  have h2 := toNat_toLower c
  simp only [Char.toNat] at h1 h2
  rw [h1]
  split
  · rename_i h
    rw [h2] at h ⊢
    split at h <;> omega
  · rfl

theorem encodeChar_lower (c : Char) : encodeChar c.toLower = (encodeChar c).map lowerByte := by
  by_cases h : c.toNat < 128
  · have h' : c.toLower.toNat < 128 := by rw [toNat_toLower]; split <;> omega
    have e1 : encodeChar c = [UInt8.ofNat c.toNat] := by simp [encodeChar, h]
    have e2 : encodeChar c.toLower = [UInt8.ofNat c.toLower.toNat] := by simp [encodeChar, h']
    rw [e1, e2, List.map_cons, List.map_nil]
    congr 1
    apply UInt8.toNat_inj.mp
    rw [toNat_lowerByte, u8 _ (by omega), u8 _ (by omega), toNat_toLower]
  · have e : c.toLower = c := by
      apply Char.ext
      apply UInt32.toNat_inj.mp
      have := toNat_toLower c
      rw [if_neg (by omega)] at this
      exact this
    have hlt : c.toNat < 0x110000 := by
      have := c.valid
      rcases this with h | ⟨_, h⟩ <;> simp only [Char.toNat] <;> omega
    rw [e]
    symm
    conv => rhs; rw [← List.map_id (encodeChar c)]
    apply List.map_congr_left
    intro b hb
    refine lowerByte_high ?_
    unfold encodeChar at hb
    simp only at hb
    rw [if_neg h] at hb
    split at hb
    · simp only [List.mem_cons, List.not_mem_nil, or_false] at hb
      rcases hb with rfl | rfl <;> rw [u8 _ (by omega)] <;> omega
    · split at hb
      · simp only [List.mem_cons, List.not_mem_nil, or_false] at hb
        rcases hb with rfl | rfl | rfl <;> rw [u8 _ (by omega)] <;> omega
      · simp only [List.mem_cons, List.not_mem_nil, or_false] at hb
        rcases hb with rfl | rfl | rfl | rfl <;> rw [u8 _ (by omega)] <;> omega

/-- ASCII lower-casing commutes with UTF-8. -/
theorem encode_lower (s : Str) : encode (s.map Char.toLower) = lowerBytes (encode s) := by
  induction s with
  | nil => rfl
  | cons c s ih =>
    show encodeChar c.toLower ++ encode (s.map Char.toLower) = (encodeChar c ++ encode s).map lowerByte
    rw [ih, encodeChar_lower, List.map_append]
    rfl

theorem lowerBytes_idem (b : Bytes) : lowerBytes (lowerBytes b) = lowerBytes b := by
  simp only [lowerBytes, List.map_map]
  apply List.map_congr_left
  intro x _
  exact lowerByte_idem x

theorem lowerBytes_ascii {b : Bytes} (h : AsciiBytes b) : AsciiBytes (lowerBytes b) := by
  intro x hx
  simp only [lowerBytes, List.mem_map] at hx
  obtain ⟨y, hy, rfl⟩ := hx
  have := h y hy
  rw [toNat_lowerByte]; split <;> omega

/-- The string is text. -/
def isText : PyStr → Bool
  | .text _ => true
  | .bytes _ => false

/-- A string in ASCII. -/
def Ascii (x : PyStr) : Prop := AsciiBytes x.toBytes

instance (x : PyStr) : Decidable x.Ascii := inferInstanceAs (Decidable (AsciiBytes x.toBytes))

theorem encode_ascii_iff {s : Str} : AsciiBytes (encode s) ↔ AsciiText s := by
  refine ⟨fun h => ?_, encode_asciiBytes⟩
  have h1 := decode_ascii h
  rw [decode_encode] at h1
  have e := Except.ok.inj h1
  rw [e]
  intro c hc
  simp only [List.mem_map] at hc
  obtain ⟨x, hx, rfl⟩ := hc
  have := h x hx
  rw [toNat_ofNat_small _ (by omega)]; exact this

theorem eq_iff (x y : PyStr) : x = y ↔ x.isText = y.isText ∧ x.toBytes = y.toBytes := by
  cases x <;> cases y <;> simp [isText, toBytes]
  exact ⟨fun h => h ▸ rfl, encode_injective⟩

theorem lower_isText (U : Unicode) (x : PyStr) : (x.lower U).isText = x.isText := by cases x <;> rfl

theorem lower_toBytes {U : Unicode} (hU : Sane U) {x : PyStr} (hx : x.Ascii) : (x.lower U).toBytes = lowerBytes x.toBytes := by
  cases x with
  | text s => rw [lower, toBytes, hU.ascii s (encode_ascii_iff.mp hx), encode_lower]; rfl
  | bytes b => rfl

theorem lower_eq_iff {U : Unicode} (hU : Sane U) {x y : PyStr} (hx : x.Ascii) (hy : y.Ascii) :
    x.lower U = y.lower U ↔ x.isText = y.isText ∧ lowerBytes x.toBytes = lowerBytes y.toBytes := by
  rw [eq_iff, lower_isText, lower_isText, lower_toBytes hU hx, lower_toBytes hU hy]

/-- The other form of a string. -/
theorem getStrings_ok {x : PyStr} {l : List PyStr} (h : x.getStrings = .ok l) :
    ∃ y, l = [x, y] ∧ y.toBytes = x.toBytes ∧ y.isText = !x.isText := by
  cases x with
  | text s => cases h; exact ⟨.bytes (encode s), rfl, rfl, rfl⟩
  | bytes b =>
    simp only [getStrings, bind, Except.bind] at h
    split at h
    · cases h
    · rename_i s hs
      cases h
      exact ⟨.text s, rfl, encode_decode hs, rfl⟩

/-- The string is text, or octets that are UTF-8. -/
def Decodable (x : PyStr) : Prop := ∃ s, encode s = x.toBytes

theorem getStrings_total {x : PyStr} : x.Decodable ↔ ∃ l, x.getStrings = .ok l := by
  constructor
  · rintro ⟨s, hs⟩
    cases x with
    | text t => exact ⟨_, rfl⟩
    | bytes b =>
      have hs' : encode s = b := hs
      subst hs'
      exact ⟨_, by simp only [getStrings, decode_encode, bind, Except.bind]; rfl⟩
  · rintro ⟨l, hl⟩
    cases x with
    | text t => exact ⟨t, rfl⟩
    | bytes b =>
      simp only [getStrings, bind, Except.bind] at hl
      split at hl
      · cases hl
      · rename_i s hs; exact ⟨s, encode_decode hs⟩

theorem ascii_decodable {x : PyStr} (h : x.Ascii) : x.Decodable := by
  cases x with
  | text t => exact ⟨t, rfl⟩
  | bytes b => exact ⟨_, encode_decode (decode_ascii h)⟩

theorem lower_decodable {U : Unicode} {x : PyStr} (h : x.Decodable) : (x.lower U).Decodable := by
  cases x with
  | text t => exact ⟨U.lower t, rfl⟩
  | bytes b =>
    obtain ⟨s, hs⟩ := h
    refine ⟨s.map Char.toLower, ?_⟩
    rw [encode_lower, hs]; rfl

end PyStr
end Verif
