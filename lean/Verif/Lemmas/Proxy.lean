import Verif.Spec.Proxy
/-
Facts about the proxy with several connections.
-/
namespace Verif.Proxy
open Verif.Ldap Verif.Server Verif.Client Verif.Spec.Proxy
open Verif.Merger (isFinal)

/-- The phase of the client connection `c` after a history. -/
def phase (c : Nat) (es : List Event) : Phase := es.foldl (next c) .before

theorem receivedFrom_append (c : Nat) : ∀ (es fs : List Event) (p : Phase),
    receivedFrom c p (es ++ fs) = receivedFrom c p es ++ receivedFrom c (es.foldl (next c) p) fs
  | [], fs, p => by simp [receivedFrom]
  | e :: es, fs, p => by simp [receivedFrom, receivedFrom_append c es fs, List.append_assoc]

theorem received_snoc (c : Nat) (es : List Event) (e : Event) : received c (es ++ [e]) = received c es ++ gain c (phase c es) e := by
  simp [received, receivedFrom_append, receivedFrom, phase]

theorem phase_snoc (c : Nat) (es : List Event) (e : Event) : phase c (es ++ [e]) = next c (phase c es) e := by
  simp [phase]

@[simp] theorem set_self (w : World) (c : Nat) (x : PConn) : (w.set c x).conns c = x := by simp [World.set]

theorem set_other (w : World) {c j : Nat} (x : PConn) (h : j ≠ c) : (w.set c x).conns j = w.conns j := by simp [World.set, h]

theorem needs_of_request {op : Obj} (h : isRequest op = true) : needsAnswer op ≠ none := by
  unfold isRequest at h
  split at h <;> simp_all [needsAnswer]

/-- What `clientQueue` does to another connection, and to the list of waiting requests. -/
theorem clientQueue_other (w : World) {c j : Nat} (r : Nat) (op : Obj) (h : j ≠ c) :
    (clientQueue w c r op).conns j = w.conns j := by
  unfold clientQueue
  simp only
  split
  · split
    · rfl
    · simp [World.set, h]
  · rfl

theorem clientQueue_waiting (w : World) (c r : Nat) (op : Obj) : (clientQueue w c r op).waiting = w.waiting := by
  unfold clientQueue
  simp only
  split
  · split <;> rfl
  · rfl

/-- What `clientQueue` may change on its connection. -/
theorem clientQueue_self (w : World) (c r : Nat) (op : Obj) : ∃ onwire wrote,
    (clientQueue w c r op).conns c = { w.conns c with onwire, wrote } := by
  unfold clientQueue
  simp only
  split
  · split
    · exact ⟨_, _, rfl⟩
    · exact ⟨_, _, by simp only [World.set, if_true]; rfl⟩
  · exact ⟨_, _, rfl⟩

/-- Everything that holds in every history. -/
structure Inv (es : List Event) (w : World) : Prop where
  requests : ∀ c, (w.conns c).requests = (received c es).map (·.1)
  opened : ∀ c, (w.conns c).opened = decide (phase c es ≠ .before)
  alive : ∀ c, (w.conns c).alive = decide (phase c es = .there)
  closed : ∀ c, (w.conns c).opened = false → w.conns c = .fresh
  linked : ∀ c, (w.conns c).client = true → (w.conns c).settled = true
  linked' : ∀ c, (w.conns c).upConnected = true → (w.conns c).settled = true
  wrote : ∀ c, ∀ x ∈ (w.conns c).wrote, ∃ id, (received c es)[x.r]? = some (id, x.op)
  waiting : ∀ q ∈ w.waiting, ∃ id, (received q.1 es)[q.2.1]? = some (id, q.2.2.1)
  pos : 0 < w.nextId
  below : ∀ c, ∀ x ∈ (w.conns c).wrote, 0 < x.mid ∧ x.mid < w.nextId
  below' : ∀ c, ∀ x ∈ (w.conns c).onwire, 0 < x.1 ∧ x.1 < w.nextId
  own : ∀ c, ∀ x ∈ (w.conns c).onwire, ∀ j, ∀ y ∈ (w.conns j).wrote, y.mid = x.1 → j = c ∧ y.r = x.2
  distinct : ∀ c, ∀ x ∈ (w.conns c).wrote, ∀ j, ∀ y ∈ (w.conns j).wrote, y.mid = x.mid → j = c ∧ y.r = x.r
  sent : ∀ c, ∀ x ∈ (w.conns c).sent, (∃ op, (received c es)[x.r]? = some (x.id, op)) ∧ ∃ mid, .response c mid x.op ∈ es ∧
    0 < mid ∧ mid < w.nextId ∧ ∀ j, ∀ y ∈ (w.conns j).wrote, y.mid = mid → j = c ∧ y.r = x.r

theorem inv_initial : Inv [] .initial := by
  constructor <;> simp [World.initial, PConn.fresh, received, receivedFrom, phase]

theorem Inv.clientQueue {es : List Event} {w : World} (h : Inv es w) (c r : Nat) (id : PyVal) (op : Obj)
    (hr : (received c es)[r]? = some (id, op)) : Inv es (clientQueue w c r op) := by
  unfold Proxy.clientQueue
  simp only
  split
  · rename_i hc
    cases needsAnswer op with
    | none => exact h
    | some a =>
      simp only
      generalize ho : (if a = true then (w.conns c).onwire ++ [(w.nextId, r)] else (w.conns c).onwire) = onwire
      generalize hw : (if encodes (.int w.nextId) op = true then (w.conns c).wrote ++ [⟨w.nextId, r, op⟩] else (w.conns c).wrote) = wrote
      have mo : ∀ x ∈ onwire, x ∈ (w.conns c).onwire ∨ x = (w.nextId, r) := by
        intro x hx
        rw [← ho] at hx
        split at hx
        · simpa using hx
        · exact .inl hx
      have mw : ∀ x ∈ wrote, x ∈ (w.conns c).wrote ∨ x = ⟨w.nextId, r, op⟩ := by
        intro x hx
        rw [← hw] at hx
        split at hx
        · simpa using hx
        · exact .inl hx
      generalize hv : ({ (w.set c { w.conns c with onwire, wrote }) with nextId := w.nextId + 1 } : World) = v
      have e1 : ∀ j, j ≠ c → v.conns j = w.conns j := fun j hj => by rw [← hv]; simp [World.set, hj]
      have e2 : v.conns c = { w.conns c with onwire, wrote } := by rw [← hv]; simp [World.set]
      have e3 : v.waiting = w.waiting := by rw [← hv]; rfl
      have e4 : v.nextId = w.nextId + 1 := by rw [← hv]
      have MW : ∀ j, ∀ y ∈ (v.conns j).wrote, y ∈ (w.conns j).wrote ∨ (j = c ∧ y = ⟨w.nextId, r, op⟩) := by
        intro j y hy
        by_cases hj : j = c
        · subst hj
          rw [e2] at hy
          exact (mw y hy).imp_right fun e => ⟨rfl, e⟩
        · rw [e1 j hj] at hy
          exact .inl hy
      have MO : ∀ j, ∀ y ∈ (v.conns j).onwire, y ∈ (w.conns j).onwire ∨ (j = c ∧ y = (w.nextId, r)) := by
        intro j y hy
        by_cases hj : j = c
        · subst hj
          rw [e2] at hy
          exact (mo y hy).imp_right fun e => ⟨rfl, e⟩
        · rw [e1 j hj] at hy
          exact .inl hy
      have pos := h.pos
      refine ⟨fun j => ?_, fun j => ?_, fun j => ?_, fun j => ?_, fun j => ?_, fun j => ?_, fun j x hx => ?_, ?_, ?_,
        fun j x hx => ?_, fun j x hx => ?_, fun j x hx k y hy e => ?_, fun j x hx k y hy e => ?_, fun j x hx => ?_⟩
      · by_cases hj : j = c
        · subst hj; rw [e2]; exact h.requests j
        · rw [e1 j hj]; exact h.requests j
      · by_cases hj : j = c
        · subst hj; rw [e2]; exact h.opened j
        · rw [e1 j hj]; exact h.opened j
      · by_cases hj : j = c
        · subst hj; rw [e2]; exact h.alive j
        · rw [e1 j hj]; exact h.alive j
      · by_cases hj : j = c
        · subst hj
          rw [e2]
          intro ho'
          have := h.closed j ho'
          rw [this] at hc
          simp [PConn.fresh] at hc
        · rw [e1 j hj]; exact h.closed j
      · by_cases hj : j = c
        · subst hj; rw [e2]; exact h.linked j
        · rw [e1 j hj]; exact h.linked j
      · by_cases hj : j = c
        · subst hj; rw [e2]; exact h.linked' j
        · rw [e1 j hj]; exact h.linked' j
      · rcases MW j x hx with hx | ⟨rfl, rfl⟩
        · exact h.wrote j x hx
        · exact ⟨id, hr⟩
      · rw [e3]; exact h.waiting
      · omega
      · rcases MW j x hx with hx | ⟨rfl, rfl⟩
        · have := h.below j x hx; omega
        · simp only; omega
      · rcases MO j x hx with hx | ⟨rfl, rfl⟩
        · have := h.below' j x hx; omega
        · simp only; omega
      · rcases MO j x hx with hx | ⟨rfl, rfl⟩ <;> rcases MW k y hy with hy | ⟨rfl, rfl⟩
        · exact h.own j x hx k y hy e
        · have := h.below' j x hx; simp only at e; omega
        · have := h.below k y hy; simp only at e; omega
        · exact ⟨rfl, rfl⟩
      · rcases MW j x hx with hx | ⟨rfl, rfl⟩ <;> rcases MW k y hy with hy | ⟨rfl, rfl⟩
        · exact h.distinct j x hx k y hy e
        · have := h.below j x hx; simp only at e; omega
        · have := h.below k y hy; simp only at e; omega
        · exact ⟨rfl, rfl⟩
      · have hx' : x ∈ (w.conns j).sent := by
          by_cases hj : j = c
          · subst hj; rw [e2] at hx; exact hx
          · rw [e1 j hj] at hx; exact hx
        obtain ⟨a1, m, a2, a3, a4, a5⟩ := h.sent j x hx'
        refine ⟨a1, m, a2, a3, by omega, fun k y hy e => ?_⟩
        rcases MW k y hy with hy | ⟨rfl, rfl⟩
        · exact a5 k y hy e
        · simp only at e; omega
  · exact h

/-- A change of one connection that keeps what has been written. -/
theorem Inv.change {es : List Event} {w : World} (h : Inv es w) (e : Event) (c : Nat) (x : PConn) (n : Int) (hn : w.nextId ≤ n)
    (oth : ∀ j, j ≠ c → received j (es ++ [e]) = received j es ∧ phase j (es ++ [e]) = phase j es)
    (pre : received c es <+: received c (es ++ [e]))
    (hreq : x.requests = (received c (es ++ [e])).map (·.1)) (hop : x.opened = true) (hph : phase c (es ++ [e]) ≠ .before)
    (hal : x.alive = decide (phase c (es ++ [e]) = .there)) (hl : x.client = true → x.settled = true)
    (hl' : x.upConnected = true → x.settled = true)
    (hw : x.wrote = (w.conns c).wrote) (ho : ∀ y ∈ x.onwire, y ∈ (w.conns c).onwire)
    (hs : ∀ y ∈ x.sent, y ∈ (w.conns c).sent ∨ ((∃ op, (received c es)[y.r]? = some (y.id, op)) ∧
      ∃ mid, e = .response c mid y.op ∧ (mid, y.r) ∈ (w.conns c).onwire)) :
    Inv (es ++ [e]) { w.set c x with nextId := n } := by
  have lift : ∀ (j k : Nat) (v : PyVal × Obj), (received j es)[k]? = some v → (received j (es ++ [e]))[k]? = some v := by
    intro j k v hk
    by_cases hj : j = c
    · subst hj
      obtain ⟨t, ht⟩ := pre
      rw [← ht, List.getElem?_append_left (by have := (List.getElem?_eq_some_iff.mp hk).1; exact this)]
      exact hk
    · rw [(oth j hj).1]; exact hk
  generalize hv : ({ w.set c x with nextId := n } : World) = v
  have e1 : ∀ j, j ≠ c → v.conns j = w.conns j := fun j hj => by rw [← hv]; simp [World.set, hj]
  have e2 : v.conns c = x := by rw [← hv]; simp [World.set]
  have e3 : v.waiting = w.waiting := by rw [← hv]; rfl
  have e4 : v.nextId = n := by rw [← hv]
  have MW : ∀ j, (v.conns j).wrote = (w.conns j).wrote := by
    intro j
    by_cases hj : j = c
    · subst hj; rw [e2, hw]
    · rw [e1 j hj]
  have MO : ∀ j, ∀ y ∈ (v.conns j).onwire, y ∈ (w.conns j).onwire := by
    intro j y hy
    by_cases hj : j = c
    · subst hj; rw [e2] at hy; exact ho y hy
    · rw [e1 j hj] at hy; exact hy
  have pos := h.pos
  refine ⟨fun j => ?_, fun j => ?_, fun j => ?_, fun j => ?_, fun j => ?_, fun j => ?_, fun j y hy => ?_, ?_, ?_,
    fun j y hy => ?_, fun j y hy => ?_, fun j y hy k z hz e => ?_, fun j y hy k z hz e => ?_, fun j y hy => ?_⟩
  · by_cases hj : j = c
    · subst hj; rw [e2]; exact hreq
    · rw [e1 j hj, (oth j hj).1]; exact h.requests j
  · by_cases hj : j = c
    · subst hj; rw [e2, hop]; simp [hph]
    · rw [e1 j hj, (oth j hj).2]; exact h.opened j
  · by_cases hj : j = c
    · subst hj; rw [e2, hal]
    · rw [e1 j hj, (oth j hj).2]; exact h.alive j
  · by_cases hj : j = c
    · subst hj; rw [e2, hop]; simp
    · rw [e1 j hj]; exact h.closed j
  · by_cases hj : j = c
    · subst hj; rw [e2]; exact hl
    · rw [e1 j hj]; exact h.linked j
  · by_cases hj : j = c
    · subst hj; rw [e2]; exact hl'
    · rw [e1 j hj]; exact h.linked' j
  · rw [MW] at hy
    obtain ⟨id, hid⟩ := h.wrote j y hy
    exact ⟨id, lift _ _ _ hid⟩
  · intro q hq
    rw [e3] at hq
    obtain ⟨id, hid⟩ := h.waiting q hq
    exact ⟨id, lift _ _ _ hid⟩
  · omega
  · rw [MW] at hy; have := h.below j y hy; omega
  · have := h.below' j y (MO j y hy); omega
  · rw [MW] at hz; exact h.own j y (MO j y hy) k z hz e
  · rw [MW] at hy hz; exact h.distinct j y hy k z hz e
  · have hy' : y ∈ (w.conns j).sent ∨ (j = c ∧ (∃ op, (received c es)[y.r]? = some (y.id, op)) ∧
      ∃ mid, e = .response c mid y.op ∧ (mid, y.r) ∈ (w.conns c).onwire) := by
      by_cases hj : j = c
      · subst hj; rw [e2] at hy; exact (hs y hy).imp_right fun a => ⟨rfl, a⟩
      · rw [e1 j hj] at hy; exact .inl hy
    rcases hy' with hy' | ⟨rfl, ⟨op, a1⟩, m, a2, a3⟩
    · obtain ⟨⟨op, a1⟩, m, a2, a3, a4, a5⟩ := h.sent j y hy'
      exact ⟨⟨op, lift _ _ _ a1⟩, m, by simp [a2], a3, by omega, fun k z hz => by rw [MW] at hz; exact a5 k z hz⟩
    · have := h.below' j _ a3
      refine ⟨⟨op, lift _ _ _ a1⟩, m, by simp [a2], by simp only at this; omega, by simp only at this; omega, fun k z hz e' => ?_⟩
      rw [MW] at hz
      exact h.own j _ a3 k z hz e'

/-- An event that changes nothing. -/
theorem Inv.stay {es : List Event} {w : World} (h : Inv es w) (e : Event)
    (oth : ∀ j, received j (es ++ [e]) = received j es ∧ phase j (es ++ [e]) = phase j es) : Inv (es ++ [e]) w := by
  refine ⟨fun j => by rw [(oth j).1]; exact h.requests j, fun j => by rw [(oth j).2]; exact h.opened j,
    fun j => by rw [(oth j).2]; exact h.alive j, h.closed, h.linked, h.linked', fun j => by rw [(oth j).1]; exact h.wrote j,
    fun q hq => by rw [(oth q.1).1]; exact h.waiting q hq, h.pos, h.below, h.below', h.own, h.distinct, fun j x hx => ?_⟩
  obtain ⟨a1, m, a2, a3⟩ := h.sent j x hx
  exact ⟨by rw [(oth j).1]; exact a1, m, by simp [a2], a3⟩

theorem Inv.queue {es : List Event} {w : World} (h : Inv es w) (c r : Nat) (id : PyVal) (op : Obj) (k : Controls)
    (hr : (received c es)[r]? = some (id, op)) : Inv es { w with waiting := w.waiting ++ [(c, r, op, k)] } := by
  refine ⟨h.requests, h.opened, h.alive, h.closed, h.linked, h.linked', h.wrote, fun q hq => ?_, h.pos, h.below, h.below', h.own, h.distinct, h.sent⟩
  rcases List.mem_append.mp hq with hq | hq
  · exact h.waiting q hq
  · simp only [List.mem_singleton] at hq
    subst hq
    exact ⟨id, hr⟩

theorem Inv.emptied {es : List Event} {w : World} (h : Inv es w) : Inv es { w with waiting := [] } :=
  ⟨h.requests, h.opened, h.alive, h.closed, h.linked, h.linked', h.wrote, fun q hq => by simp at hq, h.pos, h.below, h.below', h.own, h.distinct, h.sent⟩

theorem Inv.all {es : List Event} : ∀ (l : List (Nat × Nat × Obj × Controls)) {w : World}, Inv es w →
    (∀ q ∈ l, ∃ id, (received q.1 es)[q.2.1]? = some (id, q.2.2.1)) →
    Inv es (l.foldl (fun w q => Proxy.clientQueue w q.1 q.2.1 q.2.2.1) w)
  | [], _, h, _ => h
  | q :: l, w, h, hl => by
    obtain ⟨id, hid⟩ := hl q (by simp)
    exact Inv.all l (h.clientQueue q.1 q.2.1 id q.2.2.1 hid) fun x hx => hl x (by simp [hx])

theorem mem_of_lookup {l : List (Int × Nat)} {m : Int} {r : Nat} : l.lookup m = some r → (m, r) ∈ l := by
  induction l with
  | nil => simp
  | cons x l ih =>
    obtain ⟨a, b⟩ := x
    simp only [List.lookup_cons]
    split
    · rename_i h
      intro e
      have : m = a := by simpa using h
      simp_all
    · intro e
      simp [ih e]

theorem set_same (w : World) (x : PConn) (c : Nat) : ({ w.set c x with nextId := w.nextId } : World) = w.set c x := rfl

theorem Inv.step {es : List Event} {w : World} (h : Inv es w) (e : Event) : Inv (es ++ [e]) (step w e) := by
  have none : ∀ j, gain j (phase j es) e = [] → next j (phase j es) e = phase j es →
      received j (es ++ [e]) = received j es ∧ phase j (es ++ [e]) = phase j es := by
    intro j h1 h2
    rw [received_snoc, phase_snoc, h1, h2]
    simp
  have same : ∀ c, (∀ j, gain j (phase j es) e = [] ∧ next j (phase j es) e = phase j es) → ∀ x : PConn, (w.conns c).opened = true →
      x.requests = (w.conns c).requests → x.opened = (w.conns c).opened → x.alive = (w.conns c).alive →
      (x.client = true → x.settled = true) → (x.upConnected = true → x.settled = true) → x.wrote = (w.conns c).wrote →
      (∀ y ∈ x.onwire, y ∈ (w.conns c).onwire) →
      (∀ y ∈ x.sent, y ∈ (w.conns c).sent ∨ ((∃ op, (received c es)[y.r]? = some (y.id, op)) ∧
        ∃ mid, e = .response c mid y.op ∧ (mid, y.r) ∈ (w.conns c).onwire)) →
      Inv (es ++ [e]) (w.set c x) := by
    intro c hn x ho h1 h2 h3 h4 h4' h5 h6 h7
    have hc := none c (hn c).1 (hn c).2
    rw [← set_same w x c]
    refine h.change e c x w.nextId (Int.le_refl _) (fun j _ => none j (hn j).1 (hn j).2) (by rw [hc.1]; exact List.prefix_refl _) ?_ (by rw [h2, ho]) ?_ ?_ h4 h4' h5 h6 h7
    · rw [h1, hc.1]; exact h.requests c
    · rw [hc.2]
      have := h.opened c
      rw [ho] at this
      simpa using this.symm
    · rw [h3, hc.2]; exact h.alive c
  cases e with
  | opened c =>
    show Inv _ (if _ then _ else _)
    split
    · rename_i ho
      have hp : phase c es ≠ .before := by have := h.opened c; rw [ho] at this; simpa using this.symm
      refine h.stay _ fun j => none j (by cases phase j es <;> rfl) ?_
      by_cases hj : c = j
      · subst hj
        cases hq : phase c es with
        | before => exact absurd hq hp
        | there => rfl
        | gone => rfl
      · cases phase j es <;> simp [next, hj]
    · rename_i ho
      have ho : (w.conns c).opened = false := by simpa using ho
      have hf := h.closed c ho
      have hp : phase c es = .before := by have := h.opened c; rw [ho] at this; simpa using this.symm
      have hpc : phase c (es ++ [.opened c]) = .there := by rw [phase_snoc, hp]; simp [next]
      have hrc : received c (es ++ [.opened c]) = received c es := by rw [received_snoc, hp]; simp [gain]
      have hr0 := h.requests c
      rw [hf] at hr0
      unfold made
      rw [← set_same]
      refine h.change _ c _ _ (Int.le_refl _) (fun j hj => none j (by cases phase j es <;> rfl) ?_) (by rw [hrc]; exact List.prefix_refl _) ?_ rfl (by rw [hpc]; simp) (by rw [hpc]; simp)
        (by simp [PConn.fresh]) (by simp [PConn.fresh]) (by rw [hf]) (by simp [PConn.fresh]) (by simp [PConn.fresh])
      · have : c ≠ j := fun e => hj e.symm
        cases phase j es <;> simp [next, this]
      · rw [hrc]; exact hr0
  | up c =>
    have hn : ∀ j, gain j (phase j es) (.up c) = [] ∧ next j (phase j es) (.up c) = phase j es := by
      intro j; cases phase j es <;> exact ⟨rfl, rfl⟩
    show Inv _ (if _ then _ else _)
    split
    · rename_i hc
      have ho : (w.conns c).opened = true := by simp at hc; exact hc.1
      unfold up
      have h1 := same c hn { w.conns c with settled := true, client := true, upConnected := true } ho rfl rfl rfl (fun _ => rfl) (fun _ => rfl) rfl (fun _ hy => hy) (fun _ hy => .inl hy)
      have hnj := fun j => none j (hn j).1 (hn j).2
      exact Inv.all w.waiting h1.emptied fun q hq => by rw [(hnj q.1).1]; exact h.waiting q hq
    · exact h.stay _ fun j => none j (hn j).1 (hn j).2
  | failed c =>
    have hn : ∀ j, gain j (phase j es) (.failed c) = [] ∧ next j (phase j es) (.failed c) = phase j es := by
      intro j; cases phase j es <;> exact ⟨rfl, rfl⟩
    show Inv _ (if _ then _ else _)
    split
    · rename_i hc
      have ho : (w.conns c).opened = true := by simp at hc; exact hc.1
      exact same c hn _ ho rfl rfl rfl (fun _ => rfl) (fun _ => rfl) rfl (fun _ hy => hy) (fun _ hy => .inl hy)
    · exact h.stay _ fun j => none j (hn j).1 (hn j).2
  | upLost c =>
    have hn : ∀ j, gain j (phase j es) (.upLost c) = [] ∧ next j (phase j es) (.upLost c) = phase j es := by
      intro j; cases phase j es <;> exact ⟨rfl, rfl⟩
    show Inv _ (if _ then _ else _)
    split
    · rename_i hc
      have ho : (w.conns c).opened = true := by
        refine Classical.byContradiction fun hf => ?_
        have := h.closed c (by simpa using hf)
        rw [this] at hc
        simp [PConn.fresh] at hc
      exact same c hn _ ho rfl rfl rfl (h.linked c) (by simp [PConn.down]) rfl (by simp [PConn.down]) (fun _ hy => .inl hy)
    · exact h.stay _ fun j => none j (hn j).1 (hn j).2
  | response c m op =>
    have hn : ∀ j, gain j (phase j es) (.response c m op) = [] ∧ next j (phase j es) (.response c m op) = phase j es := by
      intro j; cases phase j es <;> exact ⟨rfl, rfl⟩
    show Inv _ (if _ then _ else _)
    split
    · rename_i hc
      have ho : (w.conns c).opened = true := by
        refine Classical.byContradiction fun hf => ?_
        have := h.closed c (by simpa using hf)
        rw [this] at hc
        simp [PConn.fresh] at hc
      have dn := same c hn (w.conns c).down ho rfl rfl rfl (h.linked c) (by simp [PConn.down]) rfl (by simp [PConn.down]) (fun _ hy => .inl hy)
      have st := same c hn (w.conns c) ho rfl rfl rfl (h.linked c) (h.linked' c) rfl (fun _ hy => hy) (fun _ hy => .inl hy)
      unfold response
      split
      · split
        · exact st
        · split
          · exact dn
          · rename_i r hr
            split
            · exact st
            · rename_i id hid
              unfold gotResponse
              split
              · refine same c hn _ ho rfl rfl rfl (h.linked c) (h.linked' c) rfl ?_ ?_
                · simp only
                  intro y hy
                  split at hy
                  · exact (List.mem_filter.mp hy).1
                  · exact hy
                · simp only
                  intro y hy
                  split at hy
                  · rcases List.mem_append.mp hy with hy | hy
                    · exact .inl hy
                    · simp only [List.mem_singleton] at hy
                      subst hy
                      refine .inr ⟨?_, m, rfl, mem_of_lookup hr⟩
                      rw [h.requests c, List.getElem?_map] at hid
                      cases hx : (received c es)[r]? with
                      | none => rw [hx] at hid; simp at hid
                      | some v =>
                        rw [hx] at hid
                        simp only [Option.map_some, Option.some.injEq] at hid
                        exact ⟨v.2, by rw [← hid]⟩
                  · exact .inl hy
              · exact dn
      · exact dn
    · exact h.stay _ fun j => none j (hn j).1 (hn j).2
  | lost c =>
    have hg : ∀ j, gain j (phase j es) (.lost c) = [] := by intro j; cases phase j es <;> rfl
    have ho' : ∀ j, j ≠ c → next j (phase j es) (.lost c) = phase j es := by
      intro j hj
      have : c ≠ j := fun e => hj e.symm
      cases phase j es <;> simp [next, this]
    show Inv _ (if _ then _ else _)
    split
    · rename_i hc
      have hp : phase c es = .there := by have := h.alive c; rw [hc] at this; simpa using this.symm
      have ho : (w.conns c).opened = true := by rw [h.opened c, hp]; rfl
      have hpc : phase c (es ++ [.lost c]) = .gone := by rw [phase_snoc, hp]; simp [next]
      have hrc : received c (es ++ [.lost c]) = received c es := by rw [received_snoc, hg]; simp
      unfold lost
      simp only
      split
      · refine h.change _ c _ _ ?_ (fun j hj => none j (hg j) (ho' j hj)) (by rw [hrc]; exact List.prefix_refl _) (by rw [hrc]; exact h.requests c) ho (by rw [hpc]; simp)
          (by rw [hpc]; simp) (by simp) (h.linked' c) rfl (fun _ hy => hy) (fun _ hy => .inl hy)
        split <;> omega
      · rw [← set_same]
        exact h.change _ c _ _ (Int.le_refl _) (fun j hj => none j (hg j) (ho' j hj)) (by rw [hrc]; exact List.prefix_refl _) (by rw [hrc]; exact h.requests c) ho (by rw [hpc]; simp)
          (by rw [hpc]; simp) (h.linked c) (h.linked' c) rfl (fun _ hy => hy) (fun _ hy => .inl hy)
    · rename_i hc
      have hp : phase c es ≠ .there := by
        intro hp
        have := h.alive c
        rw [hp] at this
        simp [this] at hc
      refine h.stay _ fun j => none j (hg j) ?_
      by_cases hj : j = c
      · subst hj
        cases hq : phase j es with
        | before => rfl
        | there => exact absurd hq hp
        | gone => rfl
      · exact ho' j hj
  | request c id op k =>
    have hx : ∀ j, next j (phase j es) (.request c id op k) = phase j es := by intro j; cases phase j es <;> rfl
    have ho' : ∀ j, j ≠ c → gain j (phase j es) (.request c id op k) = [] := by
      intro j hj
      have : c ≠ j := fun e => hj e.symm
      cases phase j es <;> simp [gain, this]
    show Inv _ (if _ then _ else _)
    split
    · rename_i hc
      have hc : ((w.conns c).alive = true ∧ isRequest op = true) ∧ id ≠ .int 0 := by simpa using hc
      have hp : phase c es = .there := by have := h.alive c; rw [hc.1.1] at this; simpa using this.symm
      have ho : (w.conns c).opened = true := by rw [h.opened c, hp]; rfl
      have hrc : received c (es ++ [.request c id op k]) = received c es ++ [(id, op)] := by
        rw [received_snoc, hp]; simp [gain, hc.1.2, hc.2]
      have hlen : (w.conns c).requests.length = (received c es).length := by rw [h.requests c]; simp
      have hget : (received c (es ++ [.request c id op k]))[(w.conns c).requests.length]? = some (id, op) := by
        rw [hrc, hlen]; simp
      have base : ∀ u, Inv (es ++ [.request c id op k])
          (w.set c { w.conns c with requests := (w.conns c).requests ++ [id], unbound := u }) := by
        intro u
        rw [← set_same]
        exact h.change _ c _ _ (Int.le_refl _) (fun j hj => none j (ho' j hj) (hx j)) (by rw [hrc]; exact List.prefix_append _ _)
          (by rw [hrc, List.map_append]; simp [h.requests c]) ho (by rw [phase_snoc, hx, hp]; simp) (by rw [phase_snoc, hx]; exact h.alive c)
          (h.linked c) (h.linked' c) rfl (fun _ hy => hy) (fun _ hy => .inl hy)
      unfold receive whenConnected
      simp only
      split
      · exact (base (unbinds op (w.conns c).unbound)).clientQueue c _ id op hget
      · exact (base (unbinds op (w.conns c).unbound)).queue c _ id op k hget
    · rename_i hc
      refine h.stay _ fun j => none j ?_ (hx j)
      by_cases hj : j = c
      · subst hj
        have ha := h.alive j
        cases hq : phase j es with
        | before => rfl
        | gone => rfl
        | there =>
          rw [hq] at ha
          simp only [decide_true] at ha
          simp only [gain]
          rw [if_neg]
          intro hh
          refine hc ?_
          rw [ha]
          simpa using hh
      · exact ho' j hj

theorem Inv.foldl : ∀ (fs : List Event) {es : List Event} {w : World}, Inv es w → Inv (es ++ fs) (fs.foldl Proxy.step w)
  | [], es, w, h => by simpa using h
  | e :: fs, es, w, h => by
    have := Inv.foldl fs (h.step e)
    simpa using this

theorem inv_run (es : List Event) : Inv es (run es) := by simpa [run] using Inv.foldl es inv_initial

end Verif.Proxy
