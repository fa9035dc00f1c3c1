import Verif.Lemmas.Transport
/-
A connection while it is in use: some of what was written has arrived, and some of the messages have been handled.
-/
namespace Verif.Conn
open Verif.Ldap Verif.Spec

/-- The octets of a list of messages, each with its encoding. -/
def bytesOf (L : List (Bytes × Obj)) : Bytes := L.flatMap (·.1)

/-- Every encoding decodes to its message. -/
def Decodes (L : List (Bytes × Obj)) : Prop := ∀ x ∈ L, Dec topCtx x.1 x.2

/-- Of the octets of `L`, `a` have arrived; the first `n` messages have been handled and `buf` is the rest. -/
structure Pipe (L : List (Bytes × Obj)) (a : Nat) (buf : Bytes) (n : Nat) : Prop where
  le : n ≤ L.length
  arrived : a ≤ (bytesOf L).length
  split : (bytesOf L).take a = bytesOf (L.take n) ++ buf
  short : ∀ x, L[n]? = some x → buf.length < x.1.length

theorem bytesOf_append (L M : List (Bytes × Obj)) : bytesOf (L ++ M) = bytesOf L ++ bytesOf M := by
  simp [bytesOf]

theorem dec_pos {w : Bytes} {o : Obj} (h : Dec topCtx w o) : 2 ≤ w.length := by
  obtain ⟨a, c, hh, hn, -⟩ := h.1
  have := header_bounds hh
  omega

theorem bytesOf_take_succ {L : List (Bytes × Obj)} {n : Nat} {x : Bytes × Obj} (h : L[n]? = some x) :
    bytesOf (L.take (n + 1)) = bytesOf (L.take n) ++ x.1 := by
  rw [List.take_add_one, h, Option.toList_some, bytesOf_append]
  simp [bytesOf]

theorem bytesOf_drop {L : List (Bytes × Obj)} {n : Nat} {x : Bytes × Obj} (h : L[n]? = some x) :
    bytesOf (L.drop n) = x.1 ++ bytesOf (L.drop (n + 1)) := by
  rw [List.drop_eq_getElem?_toList_append, h, Option.toList_some, bytesOf_append]
  simp [bytesOf]

theorem bytesOf_split (L : List (Bytes × Obj)) (n : Nat) : bytesOf L = bytesOf (L.take n) ++ bytesOf (L.drop n) := by
  rw [← bytesOf_append, List.take_append_drop]

theorem Pipe.start (L : List (Bytes × Obj)) (h : Decodes L) : Pipe L 0 [] 0 :=
  ⟨by omega, by omega, by simp [bytesOf], fun x hx => by
    have := dec_pos (h x (List.mem_of_getElem? hx))
    simp; omega⟩

/-- More is written. -/
theorem Pipe.grow {L M : List (Bytes × Obj)} {a : Nat} {buf : Bytes} {n : Nat} (h : Pipe L a buf n) (hM : Decodes M) :
    Pipe (L ++ M) a buf n := by
  refine ⟨by have := h.le; simp; omega, by have := h.arrived; rw [bytesOf_append]; simp; omega, ?_, ?_⟩
  · rw [bytesOf_append, List.take_append_of_le_length h.arrived, List.take_append_of_le_length h.le]
    exact h.split
  · intro x hx
    by_cases hn : n < L.length
    · rw [List.getElem?_append_left hn] at hx
      exact h.short x hx
    · have hn : n = L.length := by have := h.le; omega
      have hs := h.split
      rw [hn, List.take_length] at hs
      have : (bytesOf L ++ buf).length ≤ (bytesOf L).length := by
        rw [← hs, List.length_take]; omega
      have hb : buf.length = 0 := by rw [List.length_append] at this; omega
      rw [List.getElem?_append_right (by omega)] at hx
      have := dec_pos (hM x (List.mem_of_getElem? hx))
      omega

/-- Everything has arrived. -/
theorem Pipe.all {L : List (Bytes × Obj)} {a : Nat} {buf : Bytes} {n : Nat} (h : Pipe L a buf n)
    (ha : (bytesOf L).length ≤ a) : n = L.length ∧ buf = [] := by
  have hs := h.split
  rw [List.take_of_length_le ha] at hs
  have hb : bytesOf (L.drop n) = buf := by
    rw [bytesOf_split L n] at hs
    exact List.append_cancel_left hs
  have hn : n = L.length := by
    by_cases hlt : n < L.length
    · have hx := List.getElem?_eq_getElem hlt
      have := h.short _ hx
      rw [← hb, bytesOf_drop hx, List.length_append] at this
      omega
    · have := h.le; omega
  refine ⟨hn, ?_⟩
  rw [← hb, hn, List.drop_length]
  rfl

theorem starts_prefix {w p q : Bytes} {n : Nat} (hw : w = p ++ q) (h : StartsWithElement p n) {o : Obj} (hd : Dec topCtx w o) :
    n = w.length := by
  have h1 := decode_append_of_starts (ctx := topCtx) h q
  rw [← hw, hd.2] at h1
  have hne : p ≠ [] := by
    rintro rfl
    obtain ⟨_, _, h0, _⟩ := h
    cases h0
  have h2 := starts_pos h
  have h3 := startsWith_take h
  have h4 : berDecodeObject topCtx p = .ok (some o, w.length) := h1.symm
  have h5 : p = p.take n ++ p.drop n := (List.take_append_drop n p).symm
  rw [h5, berDecodeObject_append topCtx h3] at h4
  have := berDecodeObject_consumes topCtx h3 h4
  rw [List.length_take, Nat.min_eq_left (starts_le h)] at this
  exact this.symm

/-- A proper beginning of a message is kept. -/
theorem pump_short {σ : Type} {handle : Handler σ} {p q : Bytes} {o : Obj} (hd : Dec topCtx (p ++ q) o) (hq : q ≠ []) (s : σ) :
    pump handle ⟨p, s, false⟩ = ⟨p, s, false⟩ := by
  by_cases hp : p = []
  · subst hp
    rw [pump_none (c := ⟨[], s, false⟩) (berDecodeObject_nil _)]
    rfl
  · apply pump_insufficient (c := ⟨p, s, false⟩)
    refine decode_not_starting hp fun n hn => ?_
    have h1 := starts_prefix rfl hn hd
    have h2 := starts_le hn
    rw [List.length_append] at h1
    have : q.length ≠ 0 := fun h => hq (List.length_eq_zero_iff.mp h)
    omega

/-- What is false of a state stays false. -/
theorem pump_guard {σ : Type} {handle : Handler σ} {G : σ → Prop} (hG : ∀ s m, G (handle s m).1 → G s) (k : Nat) :
    ∀ c : Conn σ, c.buffer.length ≤ k → G (pump handle c).st → G c.st := by
  induction k with
  | zero =>
    intro c hk h
    have hb : c.buffer = [] := List.length_eq_zero_iff.mp (by omega)
    rw [pump_none (c := c) (n := 0) (by rw [hb]; exact berDecodeObject_nil _)] at h
    exact h
  | succ k ih =>
    intro c hk h
    by_cases hb : c.buffer = []
    · rw [pump_none (c := c) (n := 0) (by rw [hb]; exact berDecodeObject_nil _)] at h
      exact h
    · cases hd : berDecodeObject topCtx c.buffer with
      | error e =>
        by_cases he : e = .insufficientData
        · subst he; rwa [pump_insufficient hd] at h
        · rwa [pump_error hd he] at h
      | ok x =>
        obtain ⟨o, n⟩ := x
        cases o with
        | none => rwa [pump_none hd] at h
        | some o =>
          rw [pump_some hd] at h
          refine hG c.st o ?_
          split at h
          · exact h
          · refine ih _ ?_ h
            have := decodeObject_consumed hb hd
            simp only [List.length_drop]
            omega

/-- The loop of `dataReceived` while nothing raises, if the state is to be `G` in the end. -/
theorem pump_guarded {σ : Type} {handle : Handler σ} {L : List (Bytes × Obj)} (hL : Decodes L) {J : Nat → σ → Prop} {G : σ → Prop} (hG : ∀ s m, G (handle s m).1 → G s)
    (hJ : ∀ n s x, L[n]? = some x → J n s → G (handle s x.2).1 → (handle s x.2).2 = false ∧ J (n + 1) (handle s x.2).1) {a : Nat}
    (ha : a ≤ (bytesOf L).length) (k : Nat) :
    ∀ (n : Nat) (buf : Bytes) (s : σ), L.length - n ≤ k → n ≤ L.length → (bytesOf L).take a = bytesOf (L.take n) ++ buf → J n s → G (pump handle ⟨buf, s, false⟩).st →
      ∃ n' buf' s', n ≤ n' ∧ pump handle ⟨buf, s, false⟩ = ⟨buf', s', false⟩ ∧ J n' s' ∧ Pipe L a buf' n' := by
  induction k with
  | zero =>
    intro n buf s hk hn hs hj hg
    have hn : n = L.length := by omega
    have hb : buf = [] := by
      rw [hn, List.take_length] at hs
      have : (bytesOf L ++ buf).length ≤ (bytesOf L).length := by rw [← hs, List.length_take]; omega
      exact List.length_eq_zero_iff.mp (by rw [List.length_append] at this; omega)
    subst hb
    refine ⟨n, [], s, Nat.le_refl _, ?_, hj, by omega, ha, hs, fun x hx => ?_⟩
    · rw [pump_none (c := ⟨[], s, false⟩) (berDecodeObject_nil _)]; rfl
    · rw [List.getElem?_eq_none (by omega)] at hx; cases hx
  | succ k ih =>
    intro n buf s hk hn hs hj hg
    by_cases hlt : n < L.length
    · have hx := List.getElem?_eq_getElem hlt
      generalize L[n] = x at hx
      have hd := hL x (List.mem_of_getElem? hx)
      have hbuf : buf = (x.1 ++ bytesOf (L.drop (n + 1))).take (a - (bytesOf (L.take n)).length) := by
        rw [← bytesOf_drop hx]
        have h1 := bytesOf_split L n
        rw [h1, List.take_append] at hs
        have hle : (bytesOf (L.take n)).length ≤ a := by
          have hh := congrArg List.length hs
          have h3 : ((bytesOf (L.take n)).take a ++ (bytesOf (L.drop n)).take (a - (bytesOf (L.take n)).length)).length ≤ a := by
            simp only [List.length_append, List.length_take]; omega
          simp only [List.length_append] at hh h3
          omega
        rw [List.take_of_length_le hle] at hs
        exact (List.append_cancel_left hs).symm
      by_cases hsh : buf.length < x.1.length
      · refine ⟨n, buf, s, Nat.le_refl _, ?_, hj, hn, ha, hs, fun y hy => ?_⟩
        · have hq : ∃ q, q ≠ [] ∧ x.1 = buf ++ q := by
            have hlen : a - (bytesOf (L.take n)).length < x.1.length := by
              rw [hbuf, List.length_take] at hsh
              simp only [List.length_append] at hsh
              omega
            rw [List.take_append_of_le_length (by omega)] at hbuf
            refine ⟨x.1.drop (a - (bytesOf (L.take n)).length), ?_, ?_⟩
            · intro h0
              have := congrArg List.length h0
              simp at this; omega
            · rw [hbuf, List.take_append_drop]
          obtain ⟨q, hq, he⟩ := hq
          rw [he] at hd
          exact pump_short hd hq s
        · rw [hx] at hy; cases hy; exact hsh
      · have hpre : ∃ r, buf = x.1 ++ r := by
          refine ⟨buf.drop x.1.length, ?_⟩
          have h1 : x.1.length ≤ a - (bytesOf (L.take n)).length := by
            have h2 := congrArg List.length hbuf
            simp only [List.length_take] at h2
            omega
          rw [hbuf, List.take_append, List.take_of_length_le h1, List.drop_left]
        obtain ⟨r, hr⟩ := hpre
        have h1 : berDecodeObject topCtx (x.1 ++ r) = .ok (some x.2, x.1.length) := by
          rw [berDecodeObject_append _ hd.1]; exact hd.2
        have hgx : G (handle s x.2).1 := by
          rw [hr, pump_some (c := ⟨x.1 ++ r, s, false⟩) h1] at hg
          split at hg
          · exact hg
          · exact pump_guard hG _ _ (Nat.le_refl _) hg
        obtain ⟨h2, h3⟩ := hJ n s x hx hj hgx
        obtain ⟨n', buf', s', e1, e2, e3, e4⟩ := ih (n + 1) r (handle s x.2).1 (by omega) (by omega)
          (by rw [bytesOf_take_succ hx, hs, hr, List.append_assoc]) h3 (by
            rw [hr, pump_some (c := ⟨x.1 ++ r, s, false⟩) h1] at hg
            simpa only [h2, List.drop_left, Bool.false_eq_true, if_false] using hg)
        refine ⟨n', buf', s', by omega, ?_, e3, e4⟩
        rw [hr, pump_some (c := ⟨x.1 ++ r, s, false⟩) h1]
        simp only [h2, List.drop_left]
        exact e2
    · exact ⟨n, buf, s, Nat.le_refl _, by
        have hn : n = L.length := by omega
        have hb : buf = [] := by
          rw [hn, List.take_length] at hs
          have : (bytesOf L ++ buf).length ≤ (bytesOf L).length := by rw [← hs, List.length_take]; omega
          exact List.length_eq_zero_iff.mp (by rw [List.length_append] at this; omega)
        subst hb
        rw [pump_none (c := ⟨[], s, false⟩) (berDecodeObject_nil _)]; rfl, hj, hn, ha, hs, fun x hx => by
          rw [List.getElem?_eq_none (by omega)] at hx; cases hx⟩

/-- The loop of `dataReceived` while nothing raises. -/
theorem pump_pipe {σ : Type} {handle : Handler σ} {L : List (Bytes × Obj)} (hL : Decodes L) {J : Nat → σ → Prop}
    (hJ : ∀ n s x, L[n]? = some x → J n s → (handle s x.2).2 = false ∧ J (n + 1) (handle s x.2).1) {a : Nat}
    (ha : a ≤ (bytesOf L).length) (k : Nat) :
    ∀ (n : Nat) (buf : Bytes) (s : σ), L.length - n ≤ k → n ≤ L.length → (bytesOf L).take a = bytesOf (L.take n) ++ buf → J n s →
      ∃ n' buf' s', n ≤ n' ∧ pump handle ⟨buf, s, false⟩ = ⟨buf', s', false⟩ ∧ J n' s' ∧ Pipe L a buf' n' :=
  fun n buf s h1 h2 h3 h4 => pump_guarded hL (G := fun _ => True) (fun _ _ _ => trivial) (fun n s x hx hj _ => hJ n s x hx hj) ha k n buf s h1 h2 h3 h4 trivial

/-- Some more octets arrive. -/
theorem Pipe.receiveGuarded {σ : Type} {handle : Handler σ} {L : List (Bytes × Obj)} (hL : Decodes L) {J : Nat → σ → Prop} {G : σ → Prop} (hG : ∀ s m, G (handle s m).1 → G s)
    (hJ : ∀ n s x, L[n]? = some x → J n s → G (handle s x.2).1 → (handle s x.2).2 = false ∧ J (n + 1) (handle s x.2).1) {a : Nat} {buf : Bytes}
    {n : Nat} {s : σ} (hp : Pipe L a buf n) (hj : J n s) (k : Nat)
    (hg : G (dataReceived handle ⟨buf, s, false⟩ (((bytesOf L).drop a).take k)).st) :
    ∃ n' buf' s', n ≤ n' ∧ dataReceived handle ⟨buf, s, false⟩ (((bytesOf L).drop a).take k) = ⟨buf', s', false⟩ ∧ J n' s' ∧
      Pipe L (min (a + k) (bytesOf L).length) buf' n' := by
  have h1 : (bytesOf L).take (min (a + k) (bytesOf L).length) = bytesOf (L.take n) ++ (buf ++ ((bytesOf L).drop a).take k) := by
    rw [← List.append_assoc, ← hp.split, ← List.take_add]
    apply List.ext_getElem?
    intro i
    by_cases hi : i < (bytesOf L).length
    · simp only [List.getElem?_take]
      by_cases h2 : i < a + k
      · simp [h2, hi]; omega
      · simp [h2]; omega
    · simp [List.getElem?_take, List.getElem?_eq_none (Nat.le_of_not_lt hi)]
  have := pump_guarded hL hG hJ (a := min (a + k) (bytesOf L).length) (by omega) _ n _ s (Nat.le_refl _) hp.le h1 hj (by simpa [dataReceived] using hg)
  simpa [dataReceived] using this

/-- Some more octets arrive. -/
theorem Pipe.receive {σ : Type} {handle : Handler σ} {L : List (Bytes × Obj)} (hL : Decodes L) {J : Nat → σ → Prop}
    (hJ : ∀ n s x, L[n]? = some x → J n s → (handle s x.2).2 = false ∧ J (n + 1) (handle s x.2).1) {a : Nat} {buf : Bytes}
    {n : Nat} {s : σ} (hp : Pipe L a buf n) (hj : J n s) (k : Nat) :
    ∃ n' buf' s', n ≤ n' ∧ dataReceived handle ⟨buf, s, false⟩ (((bytesOf L).drop a).take k) = ⟨buf', s', false⟩ ∧ J n' s' ∧
      Pipe L (min (a + k) (bytesOf L).length) buf' n' :=
  Pipe.receiveGuarded hL (G := fun _ => True) (fun _ _ _ => trivial) (fun n s x hx hj _ => hJ n s x hx hj) hp hj k trivial

end Verif.Conn
