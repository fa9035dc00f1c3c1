import Verif.Model.Ldap
import Verif.Lemmas.Ber
/-
Helper lemmas about the object decoder: the fuel arguments of the model are irrelevant, and the decoder
satisfies the recursive equations of pureber.py.
-/
namespace Verif.Ldap
open Verif.Ber

/-- `fromBER` only ever runs the nested decoders on the content it was given. -/
theorem fromBER_congr {decO decO' : Ctx → Bytes → Py (Option Obj × Nat)}
    {decM decM' : Ctx → Bytes → Py (List Obj)} {content : Bytes}
    (hO : ∀ c, decO c content = decO' c content) (hM : ∀ c, decM c content = decM' c content)
    (c : Cls) (tag : UInt8) (ctx : Ctx) :
    fromBER decO decM c tag content ctx = fromBER decO' decM' c tag content ctx := by
  cases c <;> simp only [fromBER, hO, hM]

theorem decodeObject_nil (f : Nat) (ctx : Ctx) : decodeObject f ctx [] = .ok (none, 0) := by
  cases f <;> simp [decodeObject]

/-- The number of bytes consumed by a successful decode of a non-empty buffer is at least 2 and at most the length of
the buffer. -/
theorem decodeObject_consumed {f : Nat} {ctx : Ctx} {m : Bytes} {o : Option Obj} {n : Nat} (hm : m ≠ [])
    (h : decodeObject f ctx m = .ok (o, n)) : 2 ≤ n ∧ n ≤ m.length := by
  match m, hm with
  | a :: t, _ =>
    cases f with
    | zero => simp [decodeObject] at h
    | succ f =>
      simp only [decodeObject, bind, Except.bind, pure, Except.pure] at h
      split at h
      · cases h
      rename_i h1
      split at h
      · cases h
      rename_i v hv
      obtain ⟨length, lenlen⟩ := v
      simp only at h
      split at h
      · cases h
      rename_i h2
      have hl : 1 ≤ lenlen := by
        simp only [berDecodeLength, bind, Except.bind, pure, Except.pure] at hv
        split at hv
        · cases hv
        · split at hv
          · split at hv
            · cases hv
            · split at hv
              · cases hv
              · injection hv with hv; injection hv with _ h3; omega
          · injection hv with hv; injection hv with _ h3; omega
      have hn : 1 + lenlen + length ≤ (a :: t).length := by
        unfold need at h2
        split at h2
        · cases h2
        · omega
      split at h
      · split at h
        · cases h
        · injection h with h; injection h with _ h; omega
      · injection h with h; injection h with _ h; omega

theorem decodeMany_congr {dec dec' : Bytes → Py (Option Obj × Nat)} (k : Nat) :
    ∀ (k' : Nat) (content : Bytes), content.length ≤ k → content.length ≤ k' →
    (∀ s, s.length ≤ content.length → dec s = dec' s) →
    (∀ s o n, s ≠ [] → dec s = .ok (o, n) → 0 < n) →
    decodeMany dec k content = decodeMany dec' k' content := by
  induction k with
  | zero =>
    intro k' content h1 _ _ _
    have : content = [] := List.length_eq_zero_iff.mp (by omega)
    subst this
    cases k' <;> simp [decodeMany]
  | succ k ih =>
    intro k' content h1 h2 hd hpos
    match content, k' with
    | [], _ => cases k' <;> simp [decodeMany]
    | a :: t, 0 => simp at h2
    | a :: t, k' + 1 =>
      simp only [decodeMany]
      rw [← hd (a :: t) (Nat.le_refl _)]
      cases hr : dec (a :: t) with
      | error e => rfl
      | ok v =>
        obtain ⟨o, n⟩ := v
        have hn : 0 < n := hpos _ o n (by simp) hr
        simp only [bind, Except.bind]
        have key : decodeMany dec k ((a :: t).drop n) = decodeMany dec' k' ((a :: t).drop n) := by
          apply ih
          · simp only [List.length_drop, List.length_cons] at *; omega
          · simp only [List.length_drop, List.length_cons] at *; omega
          · intro s hs; apply hd; simp only [List.length_drop] at hs; omega
          · exact hpos
        rw [key]

theorem decodeObject_pos {f : Nat} {ctx : Ctx} (s : Bytes) (o : Option Obj) (n : Nat) (hs : s ≠ [])
    (h : decodeObject f ctx s = .ok (o, n)) : 0 < n := by
  have := decodeObject_consumed hs h
  omega

/-- Any nesting bound above the length of the buffer gives the same result. -/
theorem decodeObject_fuel (f : Nat) : ∀ (f' : Nat) (ctx : Ctx) (m : Bytes), m.length < f → m.length < f' →
    decodeObject f ctx m = decodeObject f' ctx m := by
  induction f with
  | zero => intro f' ctx m h; omega
  | succ f ih =>
    intro f' ctx m h1 h2
    match m, f' with
    | [], _ => rw [decodeObject_nil, decodeObject_nil]
    | a :: t, 0 => omega
    | a :: t, f' + 1 =>
      simp only [decodeObject]
      cases need (a :: t) 2 with
      | error e => rfl
      | ok _ =>
      simp only [bind, Except.bind]
      cases hv : berDecodeLength (a :: t) 1 with
      | error e => rfl
      | ok v =>
        obtain ⟨length, lenlen⟩ := v
        simp only
        cases hn : need (a :: t) (1 + lenlen + length) with
        | error e => rfl
        | ok _ =>
          simp only
          cases (ctx.lookup (((a :: t).headD 0) &&& 0xDF)) with
          | none => rfl
          | some cls =>
            simp only
            have hlen : (((a :: t).drop (1 + lenlen)).take length).length < (a :: t).length := by
              simp only [List.length_take, List.length_drop, List.length_cons]; omega
            have hO : ∀ c, decodeObject f c (((a :: t).drop (1 + lenlen)).take length) =
                decodeObject f' c (((a :: t).drop (1 + lenlen)).take length) := by
              intro c; apply ih <;> omega
            have hM : ∀ c, decodeMany (decodeObject f c) (((a :: t).drop (1 + lenlen)).take length).length
                (((a :: t).drop (1 + lenlen)).take length) =
                decodeMany (decodeObject f' c) (((a :: t).drop (1 + lenlen)).take length).length
                (((a :: t).drop (1 + lenlen)).take length) := by
              intro c
              apply decodeMany_congr
              · omega
              · omega
              · intro s hs; apply ih <;> omega
              · intro s o n; exact decodeObject_pos s o n
            rw [fromBER_congr (decM := fun c b => decodeMany (decodeObject f c) b.length b)
              (decO' := decodeObject f')
              (decM' := fun c b => decodeMany (decodeObject f' c) b.length b) hO hM]

/-- pureber.py:363-384, as the recursive equation the Python function satisfies. -/
theorem berDecodeObject_eq (ctx : Ctx) (m : Bytes) (hm : m ≠ []) :
    berDecodeObject ctx m = (do
      need m 2
      let (length, lenlen) ← berDecodeLength m 1
      need m (1 + lenlen + length)
      match ctx.lookup (m.headD 0 &&& 0xDF) with
      | some cls => do
        let r ← fromBER berDecodeObject (fun c b => berDecodeMultiple b c) cls (m.headD 0 &&& 0xDF)
          ((m.drop (1 + lenlen)).take length) ctx.inherit
        return (some r, 1 + lenlen + length)
      | none => return (none, 1 + lenlen + length)) := by
  match m, hm with
  | a :: t, _ =>
  unfold berDecodeObject
  simp only [decodeObject]
  cases need (a :: t) 2 with
  | error e => rfl
  | ok _ =>
  simp only [bind, Except.bind]
  cases hv : berDecodeLength (a :: t) 1 with
  | error e => rfl
  | ok v =>
    obtain ⟨length, lenlen⟩ := v
    simp only
    cases hn : need (a :: t) (1 + lenlen + length) with
    | error e => rfl
    | ok _ =>
      simp only
      cases (ctx.lookup (((a :: t).headD 0) &&& 0xDF)) with
      | none => rfl
      | some cls =>
        simp only
        have hlen : (((a :: t).drop (1 + lenlen)).take length).length < (a :: t).length := by
          simp only [List.length_take, List.length_drop, List.length_cons]; omega
        generalize (((a :: t).drop (1 + lenlen)).take length) = content at hlen ⊢
        rw [fromBER_congr (content := content) (decO' := fun c b => decodeObject (b.length + 1) c b)
          (decM' := fun c b => decodeMany (decodeObject (b.length + 1) c) b.length b)]
        · rfl
        · intro c; apply decodeObject_fuel <;> omega
        · intro c
          apply decodeMany_congr
          · omega
          · omega
          · intro s hs; apply decodeObject_fuel <;> omega
          · intro s o n; exact decodeObject_pos s o n

theorem berDecodeObject_nil (ctx : Ctx) : berDecodeObject ctx [] = .ok (none, 0) := decodeObject_nil _ _

theorem berDecodeMultiple_nil (ctx : Ctx) : berDecodeMultiple [] ctx = .ok [] := by
  simp [berDecodeMultiple, decodeMany]

/-- pureber.py:387-403, as the recursive equation the Python loop satisfies. -/
theorem berDecodeMultiple_eq (ctx : Ctx) (content : Bytes) (h : content ≠ []) :
    berDecodeMultiple content ctx = (do
      let (o, n) ← berDecodeObject ctx content
      let rest ← berDecodeMultiple (content.drop n) ctx
      return match o with | some o => o :: rest | none => rest) := by
  match content, h with
  | a :: t, _ =>
  unfold berDecodeMultiple berDecodeObject
  simp only [List.length_cons, decodeMany]
  cases hr : decodeObject (t.length + 1 + 1) ctx (a :: t) with
  | error e => rfl
  | ok v =>
    obtain ⟨o, n⟩ := v
    have hc := decodeObject_consumed (by simp) hr
    have hc2 : n ≤ t.length + 1 := hc.2
    simp only [bind, Except.bind, assert', hc2, decide_true, if_true]
    have key : decodeMany (decodeObject (t.length + 1 + 1) ctx) t.length ((a :: t).drop n) =
        decodeMany (decodeObject (((a :: t).drop n).length + 1) ctx) ((a :: t).drop n).length ((a :: t).drop n) := by
      have : ((a :: t).drop n).length ≤ t.length := by
        simp only [List.length_drop, List.length_cons]; omega
      apply decodeMany_congr
      · exact this
      · omega
      · intro s hs; apply decodeObject_fuel <;> omega
      · intro s o n; exact decodeObject_pos s o n
    simp only [key]
    cases decodeMany (decodeObject (((a :: t).drop n).length + 1) ctx) ((a :: t).drop n).length
        ((a :: t).drop n) with
    | error e => rfl
    | ok rest => cases o <;> rfl

end Verif.Ldap
