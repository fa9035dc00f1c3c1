import Verif.Model.Conn
import Verif.Spec.Stream
import Verif.Lemmas.Element
/-
Helper lemmas for C07 and C08.
-/
namespace Verif.Conn
open Verif.Ldap Verif.Spec

theorem decode_not_starting {ctx : Ctx} {m : Bytes} (hm : m ≠ []) (h : ∀ n, ¬ StartsWithElement m n) :
    berDecodeObject ctx m = .error .insufficientData := by
  cases hh : header m with
  | none => exact berDecodeObject_no_header ctx hm hh
  | some x =>
    obtain ⟨a, c⟩ := x
    apply berDecodeObject_short ctx hh
    apply Nat.lt_of_not_le
    intro hle
    exact h (a + c) ⟨a, c, hh, rfl, hle⟩

/-- The four possible verdicts on a non-empty buffer. -/
theorem decode_starting {ctx : Ctx} {m : Bytes} (hm : m ≠ []) :
    (∃ n, StartsWithElement m n) ∨ berDecodeObject ctx m = .error .insufficientData := by
  rcases Classical.em (∃ n, StartsWithElement m n) with h | h
  · exact Or.inl h
  · exact Or.inr (decode_not_starting hm (fun n hn => h ⟨n, hn⟩))

theorem decode_append_of_starts {ctx : Ctx} {m : Bytes} {n : Nat} (h : StartsWithElement m n) (rest : Bytes) :
    berDecodeObject ctx (m ++ rest) = berDecodeObject ctx m := by
  have hw := startsWith_take h
  have h1 : m ++ rest = m.take n ++ (m.drop n ++ rest) := by
    rw [← List.append_assoc, List.take_append_drop]
  have h2 : m = m.take n ++ m.drop n := (List.take_append_drop n m).symm
  rw [h1, berDecodeObject_append ctx hw]
  conv => rhs; rw [h2, berDecodeObject_append ctx hw]

theorem starts_le {m : Bytes} {n : Nat} (h : StartsWithElement m n) : n ≤ m.length := by
  obtain ⟨_, _, _, _, h⟩ := h; exact h

theorem starts_pos {m : Bytes} {n : Nat} (h : StartsWithElement m n) : 2 ≤ n := by
  obtain ⟨_, _, hh, h, _⟩ := h; have := header_bounds hh; omega

theorem decode_ok_starts {ctx : Ctx} {m : Bytes} {o : Option Obj} {n : Nat} (hm : m ≠ [])
    (h : berDecodeObject ctx m = .ok (o, n)) : StartsWithElement m n := by
  rcases decode_starting (ctx := ctx) hm with ⟨k, hk⟩ | hi
  · have hw := startsWith_take hk
    have h2 : m = m.take k ++ m.drop k := (List.take_append_drop k m).symm
    rw [h2, berDecodeObject_append ctx hw] at h
    have := berDecodeObject_consumes ctx hw h
    rw [List.length_take, Nat.min_eq_left (starts_le hk)] at this
    rw [this]; exact hk
  · rw [hi] at h; cases h

section
variable {σ : Type} {handle : Handler σ} {c : Conn σ}

theorem pump_insufficient (h : berDecodeObject topCtx c.buffer = .error .insufficientData) : pump handle c = c := by
  rw [pump]; split <;> simp_all

theorem pump_error {e : PyErr} (h : berDecodeObject topCtx c.buffer = .error e) (he : e ≠ .insufficientData) :
    pump handle c = { c with dead := true } := by
  rw [pump]; split <;> simp_all

theorem pump_none {n : Nat} (h : berDecodeObject topCtx c.buffer = .ok (none, n)) :
    pump handle c = { c with buffer := c.buffer.drop n } := by
  rw [pump]; split <;> simp_all

theorem pump_some {n : Nat} {o : Obj} (h : berDecodeObject topCtx c.buffer = .ok (some o, n)) :
    pump handle c = if (handle c.st o).2 then ⟨c.buffer.drop n, (handle c.st o).1, true⟩
      else pump handle ⟨c.buffer.drop n, (handle c.st o).1, c.dead⟩ := by
  rw [pump]; split
  all_goals first | (simp_all; done) | skip

theorem run_insufficient (h : berDecodeObject topCtx c.buffer = .error .insufficientData) : run handle c = c := by
  rw [run]; split <;> simp_all

theorem run_error {e : PyErr} (h : berDecodeObject topCtx c.buffer = .error e) (he : e ≠ .insufficientData) :
    run handle c = { c with dead := true } := by
  rw [run]; split <;> simp_all

theorem run_none {n : Nat} (h : berDecodeObject topCtx c.buffer = .ok (none, n)) (hn : n ≠ 0) :
    run handle c = run handle { c with buffer := c.buffer.drop n } := by
  conv => lhs; rw [run]
  split
  all_goals first | (simp_all; done) | skip

theorem run_some {n : Nat} {o : Obj} (h : berDecodeObject topCtx c.buffer = .ok (some o, n)) :
    run handle c = if (handle c.st o).2 then ⟨c.buffer.drop n, (handle c.st o).1, true⟩
      else run handle ⟨c.buffer.drop n, (handle c.st o).1, c.dead⟩ := by
  rw [run]; split
  all_goals first | (simp_all; done) | skip

theorem run_nil (h : c.buffer = []) : run handle c = c := by
  rw [run]; split
  all_goals simp_all [berDecodeObject_nil]

end

/-- Two connections that cannot be told apart any more. -/
def Same {σ : Type} (c d : Conn σ) : Prop :=
  c.st = d.st ∧ c.dead = d.dead ∧ (c.dead = false → c.buffer = d.buffer)

theorem Same.refl {σ : Type} (c : Conn σ) : Same c c := ⟨rfl, rfl, fun _ => rfl⟩

theorem Same.trans {σ : Type} {a b c : Conn σ} (h : Same a b) (h' : Same b c) : Same a c :=
  ⟨h.1.trans h'.1, h.2.1.trans h'.2.1, fun hd => (h.2.2 hd).trans (h'.2.2 (h.2.1 ▸ hd))⟩

theorem Same.symm {σ : Type} {a b : Conn σ} (h : Same a b) : Same b a :=
  ⟨h.1.symm, h.2.1.symm, fun hd => (h.2.2 (h.2.1.trans hd)).symm⟩

theorem ideal_dead {σ : Type} {handle : Handler σ} {c : Conn σ} (h : c.dead = true) (r : Bytes) :
    ideal handle c r = c := by simp [ideal, h]

theorem ideal_alive {σ : Type} {handle : Handler σ} {c : Conn σ} (h : c.dead = false) (r : Bytes) :
    ideal handle c r = run handle { c with buffer := c.buffer ++ r } := by simp [ideal, h]

theorem drop_append_starts {m : Bytes} {n : Nat} (h : StartsWithElement m n) (r : Bytes) :
    (m ++ r).drop n = m.drop n ++ r := List.drop_append_of_le_length (starts_le h)

/-- Going on after `pump` is going on from the start. -/
theorem ideal_pump {σ : Type} (handle : Handler σ) (rest : Bytes) (k : Nat) : ∀ (c : Conn σ), c.buffer.length ≤ k →
    c.dead = false → Same (ideal handle (pump handle c) rest) (ideal handle c rest) := by
  induction k with
  | zero =>
    intro c hk hd
    have hb : c.buffer = [] := List.length_eq_zero_iff.mp (by omega)
    have : pump handle c = c := by
      rw [pump_none (n := 0) (by rw [hb]; exact berDecodeObject_nil _)]; simp
    rw [this]; exact Same.refl _
  | succ k ih =>
    intro c hk hd
    by_cases hb : c.buffer = []
    · have : pump handle c = c := by
        rw [pump_none (n := 0) (by rw [hb]; exact berDecodeObject_nil _)]; simp
      rw [this]; exact Same.refl _
    rcases decode_starting (ctx := topCtx) hb with ⟨n, hn⟩ | hi
    · have happ := decode_append_of_starts (ctx := topCtx) hn rest
      have hpos := starts_pos hn
      cases hdec : berDecodeObject topCtx c.buffer with
      | error e =>
        by_cases he : e = .insufficientData
        · subst he; rw [pump_insufficient hdec]; exact Same.refl _
        · rw [pump_error hdec he, ideal_dead rfl, ideal_alive hd]
          rw [run_error (c := { c with buffer := c.buffer ++ rest }) (by rw [← hdec, ← happ]) he]
          exact ⟨rfl, rfl, fun h => by cases h⟩
      | ok v =>
        obtain ⟨o, n'⟩ := v
        have hs' := decode_ok_starts hb hdec
        have hpos' := starts_pos hs'
        cases o with
        | none =>
          rw [pump_none hdec, ideal_alive (by exact hd), ideal_alive hd,
            run_none (c := { c with buffer := c.buffer ++ rest }) (n := n') (by rw [← hdec, ← happ]) (by omega)]
          simp only [drop_append_starts hs']
          exact Same.refl _
        | some o =>
          rw [pump_some hdec, ideal_alive hd,
            run_some (c := { c with buffer := c.buffer ++ rest }) (n := n') (o := o) (by rw [← hdec, ← happ])]
          simp only [drop_append_starts hs']
          cases hr : (handle c.st o).2 with
          | true =>
            simp only [↓reduceIte]
            rw [ideal_dead rfl]
            exact ⟨rfl, rfl, fun h => by cases h⟩
          | false =>
            simp only [Bool.false_eq_true, ↓reduceIte]
            have := ih ⟨c.buffer.drop n', (handle c.st o).1, c.dead⟩
              (by simp only [List.length_drop]; omega) hd
            rw [ideal_alive (c := ⟨c.buffer.drop n', (handle c.st o).1, c.dead⟩) hd] at this
            exact this
    · rw [pump_insufficient hi]; exact Same.refl _

theorem ideal_feed {σ : Type} (handle : Handler σ) (segs : List Bytes) (rest : Bytes) : ∀ (c : Conn σ),
    Same (ideal handle (feed handle c segs) rest) (ideal handle c (segs.flatten ++ rest)) := by
  induction segs with
  | nil => intro c; simp only [feed, List.foldl_nil, List.flatten_nil, List.nil_append]; exact Same.refl _
  | cons s segs ih =>
    intro c
    have hf : feed handle c (s :: segs) = feed handle (dataReceived handle c s) segs := rfl
    rw [hf]
    refine (ih _).trans ?_
    cases hd : c.dead with
    | true =>
      have : dataReceived handle c s = c := by simp [dataReceived, hd]
      rw [this, ideal_dead hd, ideal_dead hd]; exact Same.refl _
    | false =>
      have : dataReceived handle c s = pump handle { c with buffer := c.buffer ++ s } := by simp [dataReceived, hd]
      rw [this]
      refine (ideal_pump handle _ _ { c with buffer := c.buffer ++ s } (Nat.le_refl _) hd).trans ?_
      rw [ideal_alive (by exact hd), ideal_alive hd]
      simp only [List.flatten_cons, List.append_assoc]
      exact Same.refl _

theorem starts_append {m : Bytes} {n : Nat} (h : StartsWithElement m n) (r : Bytes) : StartsWithElement (m ++ r) n := by
  obtain ⟨a, c, hh, hn, hle⟩ := h
  exact ⟨a, c, header_append hh r, hn, by rw [List.length_append]; omega⟩

theorem starts_unique {m : Bytes} {n n' : Nat} (h : StartsWithElement m n) (h' : StartsWithElement m n') : n = n' := by
  obtain ⟨a, c, hh, hn, _⟩ := h
  obtain ⟨a', c', hh', hn', _⟩ := h'
  rw [hh] at hh'; cases hh'; omega

theorem messageStream_step {m : Bytes} {n : Nat} (hm : MessageStream m) (h : StartsWithElement m n) :
    tagOf m = 0x10 ∧ MessageStream (m.drop n) := by
  cases hm with
  | rest m hno => exact absurd h (hno n)
  | cons w r hw ht hr =>
    have hn : n = w.length := starts_unique h (starts_append hw r)
    subst hn
    rw [List.drop_left]
    refine ⟨?_, hr⟩
    have := isElement_ne_nil hw
    cases w with
    | nil => exact absurd rfl this
    | cons a t => exact ht

theorem decode_none_unknown {ctx : Ctx} {m : Bytes} {n : Nat} (hm : m ≠ [])
    (h : berDecodeObject ctx m = .ok (none, n)) : ctx.lookup (tagOf m) = none := by
  obtain ⟨a, c, hh, hn, hle⟩ := decode_ok_starts hm h
  rw [berDecodeObject_complete ctx hh (by omega)] at h
  split at h
  · rename_i cls hl
    cases hf : fromBER berDecodeObject (fun c b => berDecodeMultiple b c) cls (tagOf m)
          ((m.drop a).take c) ctx.inherit with
    | error e => rw [hf] at h; cases h
    | ok v => rw [hf] at h; cases h
  · assumption

/-- On a stream without unknown elements, what `pump` leaves needs no further work. -/
theorem pump_stable {σ : Type} (handle : Handler σ) (rest : Bytes) (k : Nat) : ∀ (c : Conn σ), c.buffer.length ≤ k →
    c.dead = false → MessageStream (c.buffer ++ rest) → (pump handle c).dead = false →
    run handle (pump handle c) = pump handle c ∧ MessageStream ((pump handle c).buffer ++ rest) := by
  induction k with
  | zero =>
    intro c hk hd hs hp
    have hb : c.buffer = [] := List.length_eq_zero_iff.mp (by omega)
    have : pump handle c = c := by
      rw [pump_none (n := 0) (by rw [hb]; exact berDecodeObject_nil _)]; simp
    rw [this]; exact ⟨run_nil hb, hs⟩
  | succ k ih =>
    intro c hk hd hs hp
    by_cases hb : c.buffer = []
    · have : pump handle c = c := by
        rw [pump_none (n := 0) (by rw [hb]; exact berDecodeObject_nil _)]; simp
      rw [this]; exact ⟨run_nil hb, hs⟩
    cases hdec : berDecodeObject topCtx c.buffer with
    | error e =>
      by_cases he : e = .insufficientData
      · subst he; rw [pump_insufficient hdec]; exact ⟨run_insufficient hdec, hs⟩
      · rw [pump_error hdec he] at hp; cases hp
    | ok v =>
      obtain ⟨o, n⟩ := v
      have hst := decode_ok_starts hb hdec
      have hpos := starts_pos hst
      have hstep := messageStream_step hs (starts_append hst rest)
      rw [drop_append_starts hst] at hstep
      cases o with
      | none =>
        have h1 := decode_none_unknown hb hdec
        have h2 : tagOf c.buffer = tagOf (c.buffer ++ rest) := by
          cases hcb : c.buffer with
          | nil => exact absurd hcb hb
          | cons a t => rfl
        rw [h2, hstep.1] at h1
        cases h1
      | some o =>
        rw [pump_some hdec] at hp ⊢
        cases hr : (handle c.st o).2 with
        | true => rw [hr] at hp; cases hp
        | false =>
          rw [hr] at hp
          simp only [Bool.false_eq_true, ↓reduceIte] at hp ⊢
          exact ih ⟨c.buffer.drop n, (handle c.st o).1, c.dead⟩ (by simp only [List.length_drop]; omega) hd hstep.2 hp

theorem feed_dead {σ : Type} {handle : Handler σ} {c : Conn σ} (h : c.dead = true) (segs : List Bytes) :
    feed handle c segs = c := by
  induction segs with
  | nil => rfl
  | cons s segs ih =>
    have : dataReceived handle c s = c := by simp [dataReceived, h]
    show feed handle (dataReceived handle c s) segs = c
    rw [this, ih]

theorem feed_stable {σ : Type} (handle : Handler σ) (segs : List Bytes) : ∀ (c : Conn σ), c.dead = false →
    run handle c = c → MessageStream (c.buffer ++ segs.flatten) →
    ideal handle (feed handle c segs) [] = feed handle c segs := by
  induction segs with
  | nil =>
    intro c hd hr _
    show ideal handle c [] = c
    rw [ideal_alive hd]; simpa using hr
  | cons s segs ih =>
    intro c hd hr hs
    have hdr : dataReceived handle c s = pump handle { c with buffer := c.buffer ++ s } := by simp [dataReceived, hd]
    show ideal handle (feed handle (dataReceived handle c s) segs) [] = feed handle (dataReceived handle c s) segs
    rw [hdr]
    cases hp : (pump handle { c with buffer := c.buffer ++ s }).dead with
    | true => rw [feed_dead hp, ideal_dead hp]
    | false =>
      have := pump_stable handle segs.flatten _ { c with buffer := c.buffer ++ s } (Nat.le_refl _) hd
        (by simpa only [List.flatten_cons, List.append_assoc] using hs) hp
      exact ih _ hp this.1 this.2

end Verif.Conn
