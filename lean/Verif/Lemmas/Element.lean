import Verif.Spec.Element
import Verif.Lemmas.Decode
/-
Helper lemmas connecting the decoder with the framing specification.
-/
namespace Verif.Ldap
open Verif.Ber Verif.Spec

theorem header_append {m : Bytes} {x : Nat × Nat} (h : header m = some x) (r : Bytes) :
    header (m ++ r) = some x := by
  match m, h with
  | a :: l :: rest, h =>
    simp only [header, List.cons_append] at h ⊢
    by_cases hl : l.toNat < 128
    · simpa [hl] using h
    · simp only [hl, ↓reduceIte] at h ⊢
      by_cases hk : l.toNat - 128 = 0 ∨ rest.length < l.toNat - 128
      · simp only [hk, ↓reduceIte] at h; cases h
      · have hk' : ¬ (l.toNat - 128 = 0 ∨ (rest ++ r).length < l.toNat - 128) := by
          simp only [List.length_append]; omega
        simp only [hk, hk', ↓reduceIte] at h ⊢
        rw [List.take_append_of_le_length (by omega)]
        exact h

theorem header_bounds {m : Bytes} {h c : Nat} (hh : header m = some (h, c)) : 2 ≤ h ∧ h ≤ m.length := by
  match m, hh with
  | a :: l :: rest, hh =>
    simp only [header] at hh
    split at hh
    · simp only [Option.some.injEq, Prod.mk.injEq] at hh; simp only [List.length_cons]; omega
    · split at hh
      · cases hh
      · simp only [Option.some.injEq, Prod.mk.injEq] at hh; simp only [List.length_cons]; omega

theorem berDecodeLength_of_header {m : Bytes} {h c : Nat} (hh : header m = some (h, c)) :
    berDecodeLength m 1 = .ok (c, h - 1) := by
  match m, hh with
  | a :: l :: rest, hh =>
    simp only [header] at hh
    have hl256 := l.toNat_lt
    unfold berDecodeLength
    simp only [List.drop_succ_cons, List.drop_zero, List.take_succ_cons, List.take_zero, ber2int_one, bind,
      Except.bind, pure, Except.pure]
    split at hh
    · rename_i hl
      simp only [Option.some.injEq, Prod.mk.injEq] at hh
      have h1 : ¬ (128 ≤ l.toNat) := by omega
      have h2 : ¬ ((l.toNat : Int) % 256 ≥ 128) := by omega
      simp only [h1, h2, ↓reduceIte]
      congr 2 <;> omega
    · rename_i hl
      have h1 : 128 ≤ l.toNat := by omega
      have h2 : (((l.toNat : Int) - 256) % 256 ≥ 128) := by omega
      have h3 : (((l.toNat : Int) - 256) % 128).toNat = l.toNat - 128 := by omega
      simp only [h1, h2, h3, ↓reduceIte]
      split at hh
      · cases hh
      · rename_i hk
        simp only [Option.some.injEq, Prod.mk.injEq] at hh
        have h4 : ¬ ((a :: l :: rest).length < 1 + (1 + (l.toNat - 128))) := by
          simp only [List.length_cons]; omega
        simp only [need, h4, ↓reduceIte, Nat.add_sub_cancel_left]
        generalize l.toNat - 128 = k at *
        have h5 : (rest.take k).length = k := by
          rw [List.length_take]; omega
        cases htk : rest.take k with
        | nil => rw [htk] at h5; simp at h5; omega
        | cons b bs =>
          rw [ber2int_unsigned]
          simp only
          have h6 : 1 + k = h - 1 := by omega
          rw [← htk, Int.toNat_natCast, hh.2, h6]

/-- If the header is incomplete the decoder reports insufficient data. -/
theorem berDecodeObject_no_header {m : Bytes} (ctx : Ctx) (hm : m ≠ []) (hh : header m = none) :
    berDecodeObject ctx m = .error .insufficientData := by
  rw [berDecodeObject_eq ctx m hm]
  match m, hm, hh with
  | [a], _, _ => simp [need, bind, Except.bind]
  | a :: l :: rest, _, hh =>
    simp only [header] at hh
    have hl256 := l.toNat_lt
    have hn : need (a :: l :: rest) 2 = .ok () := by simp [need]
    simp only [hn, bind, Except.bind]
    have : berDecodeLength (a :: l :: rest) 1 = .error .insufficientData := by
      unfold berDecodeLength
      simp only [List.drop_succ_cons, List.drop_zero, List.take_succ_cons, List.take_zero, ber2int_one, bind,
        Except.bind, pure, Except.pure]
      split at hh
      · cases hh
      · rename_i hl
        have h1 : 128 ≤ l.toNat := by omega
        have h2 : (((l.toNat : Int) - 256) % 256 ≥ 128) := by omega
        have h3 : (((l.toNat : Int) - 256) % 128).toNat = l.toNat - 128 := by omega
        simp only [h1, h2, h3, ↓reduceIte]
        split at hh
        · rename_i hk
          rcases hk with hk | hk
          · have : ¬ ((a :: l :: rest).length < 1 + (1 + (l.toNat - 128))) := by
              simp only [List.length_cons]; omega
            simp only [need, this, ↓reduceIte]
            simp [hk, ber2int]
          · have : (a :: l :: rest).length < 1 + (1 + (l.toNat - 128)) := by
              simp only [List.length_cons]; omega
            simp only [need, this, ↓reduceIte]
        · cases hh
    rw [this]

/-- If the header is complete but the content is not, the decoder reports insufficient data. -/
theorem berDecodeObject_short {m : Bytes} (ctx : Ctx) {h c : Nat} (hh : header m = some (h, c))
    (hs : m.length < h + c) : berDecodeObject ctx m = .error .insufficientData := by
  have hb := header_bounds hh
  have hm : m ≠ [] := by intro h; rw [h] at hb; simp at hb; omega
  rw [berDecodeObject_eq ctx m hm, berDecodeLength_of_header hh]
  have h1 : ¬ (m.length < 2) := by omega
  have h2 : m.length < 1 + (h - 1) + c := by omega
  simp [need, h1, h2, bind, Except.bind]

/-- The decoder on a buffer that begins with a complete element. -/
theorem berDecodeObject_complete {m : Bytes} (ctx : Ctx) {h c : Nat} (hh : header m = some (h, c))
    (hs : h + c ≤ m.length) :
    berDecodeObject ctx m =
      match ctx.lookup (tagOf m) with
      | some cls => (fromBER berDecodeObject (fun c b => berDecodeMultiple b c) cls (tagOf m)
          ((m.drop h).take c) ctx.inherit).map (fun r => (some r, h + c))
      | none => .ok (none, h + c) := by
  have hb := header_bounds hh
  have hm : m ≠ [] := by intro h; rw [h] at hb; simp at hb; omega
  rw [berDecodeObject_eq ctx m hm, berDecodeLength_of_header hh]
  have h1 : ¬ (m.length < 2) := by omega
  have h2 : ¬ (m.length < h + c) := by omega
  have h3 : 1 + (h - 1) = h := by omega
  simp only [need, h1, h2, h3, bind, Except.bind, ↓reduceIte, tagOf]
  cases ctx.lookup (m.headD 0 &&& 0xDF) with
  | none => rfl
  | some cls =>
    simp only
    cases fromBER berDecodeObject (fun c b => berDecodeMultiple b c) cls (m.headD 0 &&& 0xDF)
          ((m.drop h).take c) ctx.inherit <;> rfl

/-- Bytes after a complete element do not matter. -/
theorem berDecodeObject_append {w : Bytes} (ctx : Ctx) (hw : IsElement w) (rest : Bytes) :
    berDecodeObject ctx (w ++ rest) = berDecodeObject ctx w := by
  obtain ⟨h, c, hh, hn, hle⟩ := hw
  have hb := header_bounds hh
  rw [berDecodeObject_complete ctx (header_append hh rest) (by simp only [List.length_append]; omega),
    berDecodeObject_complete ctx hh (by omega)]
  have h1 : tagOf (w ++ rest) = tagOf w := by
    cases w with
    | nil => simp at hb; omega
    | cons a t => rfl
  have h2 : ((w ++ rest).drop h).take c = (w.drop h).take c := by
    rw [List.drop_append_of_le_length hb.2, List.take_append_of_le_length]
    rw [List.length_drop]; omega
  rw [h1, h2]

/-- A successful decode of an element consumes exactly the element. -/
theorem berDecodeObject_consumes {w : Bytes} (ctx : Ctx) (hw : IsElement w) {o : Option Obj} {n : Nat}
    (h : berDecodeObject ctx w = .ok (o, n)) : n = w.length := by
  obtain ⟨hd, c, hh, hn, hle⟩ := hw
  rw [berDecodeObject_complete ctx hh (by omega)] at h
  split at h
  · cases hf : fromBER berDecodeObject (fun c b => berDecodeMultiple b c) _ (tagOf w)
          ((w.drop hd).take c) ctx.inherit with
    | error e => rw [hf] at h; cases h
    | ok v => rw [hf] at h; simp only [Except.map, Except.ok.injEq, Prod.mk.injEq] at h; omega
  · simp only [Except.ok.injEq, Prod.mk.injEq] at h; omega

theorem isElement_ne_nil {w : Bytes} (hw : IsElement w) : w ≠ [] := by
  obtain ⟨h, c, hh, hn, hle⟩ := hw
  have hb := header_bounds hh
  intro h; rw [h] at hb; simp at hb; omega

theorem startsWith_take {m : Bytes} {n : Nat} (h : StartsWithElement m n) : IsElement (m.take n) := by
  obtain ⟨hd, c, hh, hn, hle⟩ := h
  have hb := header_bounds hh
  have hlen : (m.take n).length = n := by rw [List.length_take]; omega
  refine ⟨hd, c, ?_, by omega, by omega⟩
  match m, hh with
  | a :: l :: rest, hh =>
    obtain ⟨k, hk⟩ : ∃ k, n = k + 2 := ⟨n - 2, by omega⟩
    subst hk
    simp only [List.take_succ_cons]
    simp only [header] at hh ⊢
    split at hh
    · rename_i hl; simpa [hl] using hh
    · rename_i hl
      split at hh
      · cases hh
      · rename_i hk
        simp only [Option.some.injEq, Prod.mk.injEq] at hh
        have : ¬ (l.toNat - 128 = 0 ∨ (rest.take k).length < l.toNat - 128) := by
          rw [List.length_take]; omega
        simp only [hl, this, ↓reduceIte, Option.some.injEq, Prod.mk.injEq]
        rw [List.take_take, Nat.min_eq_left (by omega)]
        exact hh

/-- Decoding the elements of a structure, one complete element at a time. -/
theorem berDecodeMultiple_cons {w : Bytes} (ctx : Ctx) (hw : IsElement w) (rest : Bytes) :
    berDecodeMultiple (w ++ rest) ctx = (do
      let (o, _) ← berDecodeObject ctx w
      let r ← berDecodeMultiple rest ctx
      return match o with | some o => o :: r | none => r) := by
  rw [berDecodeMultiple_eq ctx _ (by simp [isElement_ne_nil hw]), berDecodeObject_append ctx hw]
  cases h : berDecodeObject ctx w with
  | error e => rfl
  | ok v =>
    obtain ⟨o, n⟩ := v
    have := berDecodeObject_consumes ctx hw h
    subst this
    simp only [bind, Except.bind, List.drop_left]
    cases berDecodeMultiple rest ctx <;> rfl

theorem berDecodeObject_unknown {w : Bytes} (ctx : Ctx) (hw : IsElement w)
    (hu : ctx.lookup (tagOf w) = none) : berDecodeObject ctx w = .ok (none, w.length) := by
  obtain ⟨hd, c, hh, hn, hle⟩ := hw
  rw [berDecodeObject_complete ctx hh (by omega), hu, hn]

end Verif.Ldap
