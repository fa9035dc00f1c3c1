import Verif.Lemmas.Element
/-
Helper lemmas about the encoder: everything written is one complete element.
-/
namespace Verif.Ldap
open Verif.Ber Verif.Spec

theorem bind_ok {α β : Type} {x : Py α} {f : α → Py β} {w : β} (h : (x >>= f) = .ok w) :
    ∃ a, x = .ok a ∧ f a = .ok w := by
  cases x with
  | error e => cases h
  | ok a => exact ⟨a, rfl, h⟩

theorem tlv_ok {t : UInt8} {c w : Bytes} (h : tlv t c = .ok w) :
    ∃ l, int2berlen c.length = .ok l ∧ w = t :: (l ++ c) := by
  obtain ⟨l, h1, h2⟩ := bind_ok h
  exact ⟨l, h1, (Except.ok.inj h2).symm⟩

theorem tlv_header {t : UInt8} {c w : Bytes} (h : tlv t c = .ok w) :
    ∃ hd, header w = some (hd, c.length) ∧ w.length = hd + c.length ∧ w.drop hd = c ∧ w.headD 0 = t := by
  obtain ⟨l, h1, rfl⟩ := tlv_ok h
  rcases int2berlen_ok h1 with ⟨hn, rfl⟩ | ⟨hn, b, bs, hl, rfl, hv⟩
  · have : (UInt8.ofNat c.length).toNat = c.length := by rw [UInt8.toNat_ofNat']; omega
    refine ⟨2, ?_, ?_, rfl, rfl⟩
    · simp only [header, List.cons_append, List.nil_append, this]
      rw [if_pos (by omega)]
    · simp only [List.length_cons, List.length_append, List.length_nil]; omega
  · have h2 : (UInt8.ofNat (128 + (bs.length + 1))).toNat = 128 + (bs.length + 1) := by
      rw [UInt8.toNat_ofNat']; omega
    have h3 : 128 + (bs.length + 1) - 128 = bs.length + 1 := by omega
    refine ⟨2 + (bs.length + 1), ?_, ?_, ?_, rfl⟩
    · simp only [header, List.cons_append, h2, h3]
      rw [if_neg (by omega), if_neg (by simp only [List.length_cons, List.length_append]; omega)]
      rw [← List.cons_append, List.take_append_of_le_length (by simp), List.take_of_length_le (by simp), hv]
    · simp only [List.length_cons, List.length_append]; omega
    · have h4 : t :: (UInt8.ofNat (128 + (bs.length + 1)) :: b :: bs ++ c) =
          (t :: UInt8.ofNat (128 + (bs.length + 1)) :: b :: bs) ++ c := rfl
      rw [h4, List.drop_append_of_le_length (by simp only [List.length_cons]; omega),
        List.drop_eq_nil_of_le (by simp only [List.length_cons]; omega)]
      rfl

theorem tlv_isElement {t : UInt8} {c w : Bytes} (h : tlv t c = .ok w) : IsElement w := by
  obtain ⟨hd, h1, h2, _, _⟩ := tlv_header h
  exact ⟨hd, c.length, h1, h2, Nat.le_refl _⟩

/-- Decoding what `tlv` wrote comes down to the class method `fromBER` on the content. -/
theorem decode_tlv {t : UInt8} {c w : Bytes} (h : tlv t c = .ok w) (ctx : Ctx) {cls : Cls}
    (hl : ctx.lookup (t &&& 0xDF) = some cls) :
    berDecodeObject ctx w =
      (fromBER berDecodeObject (fun c b => berDecodeMultiple b c) cls (t &&& 0xDF) c ctx.inherit).map
        (fun r => (some r, w.length)) := by
  obtain ⟨hd, h1, h2, h3, h4⟩ := tlv_header h
  rw [berDecodeObject_complete ctx h1 (by omega)]
  simp only [tagOf, h4, hl, h3, List.take_length, h2]

theorem encInt_tlv {t : UInt8} {v : PyVal} {w : Bytes} (h : encInt t v = .ok w) :
    ∃ i, v = .int i ∧ tlv t (int2ber i) = .ok w := by
  cases v with
  | int i => exact ⟨i, rfl, h⟩
  | bytes b => cases h
  | none => cases h

theorem encOct_tlv {t : UInt8} {v : PyVal} {w : Bytes} (h : encOct t v = .ok w) :
    ∃ c, toBytes v = .ok c ∧ tlv t c = .ok w := by
  cases v with
  | none => cases h
  | int i => exact bind_ok h
  | bytes b => exact bind_ok h

theorem int2berlen_one : int2berlen 1 = .ok [1] := by decide +kernel

theorem tlv_one (t b : UInt8) : tlv t [b] = .ok [t, 1, b] := by
  have : int2berlen ([b] : Bytes).length = .ok [1] := int2berlen_one
  simp only [tlv, this, bind, Except.bind, pure, Except.pure]
  rfl

theorem tlv_empty (t : UInt8) : tlv t [] = .ok [t, 0] := by
  have : int2berlen ([] : Bytes).length = .ok [0] := by decide +kernel
  simp only [tlv, this, bind, Except.bind, pure, Except.pure]
  rfl

theorem encBool_int (t : UInt8) (i : Int) : encBool t (.int i) = tlv t [if i = 0 then 0x00 else 0xFF] := by
  simp only [encBool, int2berlen_one, bind, Except.bind, pure, Except.pure, tlv_one]
  rfl

theorem encBool_tlv {t : UInt8} {v : PyVal} {w : Bytes} (h : encBool t v = .ok w) :
    ∃ b, tlv t [b] = .ok w := by
  cases v with
  | int i => exact ⟨_, by rw [← encBool_int]; exact h⟩
  | bytes b =>
    simp only [encBool] at h
    split at h
    · cases h
    · refine ⟨0xFF, ?_⟩
      rw [tlv_one]
      simp only [int2berlen_one, bind, Except.bind, pure, Except.pure] at h
      exact h
  | none => cases h

/-- Everything the library encodes is a tag, a definite length and a content of that length. -/
theorem toWire_tlv {o : Obj} {w : Bytes} (h : toWire o = .ok w) : ∃ t c, tlv t c = .ok w := by
  cases o with
  | int c tag v => rw [toWire] at h; obtain ⟨i, _, h⟩ := encInt_tlv h; exact ⟨_, _, h⟩
  | oct c tag v => rw [toWire] at h; obtain ⟨i, _, h⟩ := encOct_tlv h; exact ⟨_, _, h⟩
  | null c tag => rw [toWire] at h; exact ⟨tag, [], by rw [tlv_empty]; exact h⟩
  | bool c tag v =>
    rw [toWire] at h
    split at h
    · obtain ⟨b, h⟩ := encBool_tlv h; exact ⟨_, _, h⟩
    · cases h
  | control tag a b c =>
    simp only [toWire, encControl] at h
    repeat (first | exact ⟨_, _, h⟩ | obtain ⟨_, _, h⟩ := bind_ok h)
  | _ =>
    simp only [toWire] at h
    repeat (first | exact ⟨_, _, h⟩ | obtain ⟨_, _, h⟩ := bind_ok h)

theorem toWire_isElement {o : Obj} {w : Bytes} (h : toWire o = .ok w) : IsElement w := by
  obtain ⟨t, c, h⟩ := toWire_tlv h
  exact tlv_isElement h

end Verif.Ldap
