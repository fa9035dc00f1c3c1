import Verif.Lemmas.Proxy
import Verif.Lemmas.Server
/-
C48: a request queued on one client connection of a proxy is forwarded over that connection's own link to the proxied
server, once that link is up, whatever other client connections do.

The part about the own link holds: what is written to a link is a request of that link's client connection
(`own_link`), and what a client is sent came over its own link, under a message id that no other request had
(`own_responses`).  Requests received while the link is up are forwarded at once, in order, whatever other connections
do (`forwarded_after`).

Requests received before that may be lost: `waitingConnect` is shared by all connections, and whichever link comes up
first empties it.  `isolated_partial` has the condition that no other link comes up between the first
request of the connection and its own link; `queue_lost` shows for any number of requests that without this condition
they are never forwarded, whatever happens later.
-/
namespace Verif.C48
open Verif.Ldap Verif.Server Verif.Proxy Verif.Spec.Proxy
open Verif.Client (Controls isResponse needsAnswer)

/-- What is written to a link are requests of the client connection of that link, each under a message id of its own. -/
theorem own_link (es : List Event) (c : Nat) (x : Wrote) (hx : x ∈ ((run es).conns c).wrote) :
    (∃ id, (received c es)[x.r]? = some (id, x.op)) ∧
    ∀ j, ∀ y ∈ ((run es).conns j).wrote, y.mid = x.mid → j = c ∧ y.r = x.r :=
  ⟨(inv_run es).wrote c x hx, (inv_run es).distinct c x hx⟩

/-- What a client is sent is a response that came over its own link, for the request whose message id it has; no other
request of any connection was forwarded under the message id of that response. -/
theorem own_responses (es : List Event) (c : Nat) (x : Sent) (hx : x ∈ ((run es).conns c).sent) :
    (∃ op, (received c es)[x.r]? = some (x.id, op)) ∧
    ∃ mid, .response c mid x.op ∈ es ∧ ∀ j, ∀ y ∈ ((run es).conns j).wrote, y.mid = mid → j = c ∧ y.r = x.r := by
  obtain ⟨a, m, b, _, _, d⟩ := (inv_run es).sent c x hx
  exact ⟨a, m, b, d⟩

/-! ### What is forwarded -/

/-- The message ids used are few. -/
structure Low (n : Nat) (w : World) : Prop where
  low : w.nextId + w.waiting.length ≤ n + 1
  pos : 1 ≤ w.nextId

theorem clientQueue_next (w : World) (c r : Nat) (op : Obj) :
    w.nextId ≤ (clientQueue w c r op).nextId ∧ (clientQueue w c r op).nextId ≤ w.nextId + 1 := by
  unfold clientQueue
  simp only
  split
  · split
    · omega
    · simp only
      omega
  · omega

theorem foldl_next : ∀ (l : List (Nat × Nat × Obj × Controls)) (w : World),
    w.nextId ≤ (l.foldl (fun w q => clientQueue w q.1 q.2.1 q.2.2.1) w).nextId ∧
    (l.foldl (fun w q => clientQueue w q.1 q.2.1 q.2.2.1) w).nextId ≤ w.nextId + l.length ∧
    (l.foldl (fun w q => clientQueue w q.1 q.2.1 q.2.2.1) w).waiting = w.waiting
  | [], w => by simp
  | q :: l, w => by
    obtain ⟨a, b, c⟩ := foldl_next l (clientQueue w q.1 q.2.1 q.2.2.1)
    have := clientQueue_next w q.1 q.2.1 q.2.2.1
    rw [clientQueue_waiting] at c
    simp only [List.foldl_cons, List.length_cons]
    exact ⟨by omega, by omega, c⟩

theorem Low.step {n : Nat} {w : World} (h : Low n w) (e : Event) : Low (n + 1) (step w e) := by
  obtain ⟨low, pos⟩ := h
  cases e with
  | opened c =>
    show Low _ (if _ then _ else _)
    split
    · exact ⟨by omega, pos⟩
    · exact ⟨by simp only [made, World.set]; omega, pos⟩
  | up c =>
    show Low _ (if _ then _ else _)
    split
    · unfold up
      obtain ⟨a, b, e⟩ := foldl_next w.waiting { w.set c { w.conns c with settled := true, client := true, upConnected := true } with waiting := [] }
      simp only [World.set] at a b e ⊢
      exact ⟨by rw [e]; simp only [List.length_nil]; omega, by omega⟩
    · exact ⟨by omega, pos⟩
  | failed c =>
    show Low _ (if _ then _ else _)
    split
    · exact ⟨by simp only [World.set]; omega, pos⟩
    · exact ⟨by omega, pos⟩
  | upLost c =>
    show Low _ (if _ then _ else _)
    split
    · exact ⟨by simp only [World.set]; omega, pos⟩
    · exact ⟨by omega, pos⟩
  | response c m op =>
    show Low _ (if _ then _ else _)
    split
    · exact ⟨by simp only [World.set]; omega, pos⟩
    · exact ⟨by omega, pos⟩
  | lost c =>
    show Low _ (if _ then _ else _)
    split
    · unfold lost
      simp only
      split
      · refine ⟨?_, ?_⟩ <;> simp only [World.set] <;> split <;> omega
      · exact ⟨by simp only [World.set]; omega, pos⟩
    · exact ⟨by omega, pos⟩
  | request c id op k =>
    show Low _ (if _ then _ else _)
    split
    · unfold receive whenConnected
      simp only
      split
      · refine ⟨?_, ?_⟩
        · rw [clientQueue_waiting]
          have := (clientQueue_next (w.set c { w.conns c with requests := (w.conns c).requests ++ [id], unbound := unbinds op (w.conns c).unbound }) c (w.conns c).requests.length op).2
          simp only [World.set] at this ⊢
          omega
        · have := (clientQueue_next (w.set c { w.conns c with requests := (w.conns c).requests ++ [id], unbound := unbinds op (w.conns c).unbound }) c (w.conns c).requests.length op).1
          simp only [World.set] at this ⊢
          omega
      · refine ⟨?_, pos⟩
        simp only [World.set, List.length_append, List.length_singleton]
        omega
    · exact ⟨by omega, pos⟩

theorem low_foldl : ∀ (es : List Event) {n : Nat} {w : World}, Low n w → Low (n + es.length) (es.foldl step w)
  | [], _, _, h => h
  | e :: es, n, w, h => by
    have := low_foldl es (h.step e)
    simpa [Nat.add_assoc, Nat.add_comm 1] using this

theorem low_run (es : List Event) : Low es.length (run es) := by
  have h : Low 0 World.initial := ⟨by simp [World.initial], by simp [World.initial]⟩
  simpa [run] using low_foldl es h

/-- A request that can be encoded is forwarded over a link that is there. -/
theorem clientQueue_forwards (w : World) (c r : Nat) (op : Obj) (hc : (w.conns c).client = true) (hu : (w.conns c).upConnected = true)
    (ho : isRequest op = true) (he : encodes (.int w.nextId) op = true) :
    forwarded ((clientQueue w c r op).conns c) = forwarded (w.conns c) ++ [(r, op)] := by
  unfold clientQueue
  simp only [hc, hu, Bool.and_self, if_true]
  cases ha : needsAnswer op with
  | none => exact absurd ha (needs_of_request ho)
  | some a => simp [World.set, he, forwarded]

theorem clientQueue_link (w : World) (c r : Nat) (op : Obj) (j : Nat) :
    ((clientQueue w c r op).conns j).client = (w.conns j).client ∧
    ((clientQueue w c r op).conns j).upConnected = (w.conns j).upConnected := by
  by_cases hj : j = c
  · subst hj
    obtain ⟨o, x, e⟩ := clientQueue_self w j r op
    rw [e]
    exact ⟨rfl, rfl⟩
  · rw [clientQueue_other w r op hj]
    exact ⟨rfl, rfl⟩

/-- The waiting requests of a connection. -/
def mine (c : Nat) (l : List (Nat × Nat × Obj × Controls)) : List (Nat × Obj) :=
  (l.filter fun q => q.1 = c).map fun q => (q.2.1, q.2.2.1)

/-- Emptying the list of waiting requests forwards those of the connection, in order. -/
theorem foldl_forwards (c n : Nat) : ∀ (l : List (Nat × Nat × Obj × Controls)) (w : World), (w.conns c).client = true →
    (w.conns c).upConnected = true → 1 ≤ w.nextId → w.nextId + l.length ≤ n + 1 →
    (∀ q ∈ l, q.1 = c → isRequest q.2.2.1 = true ∧ ∀ m : Int, 1 ≤ m → m ≤ n → encodes (.int m) q.2.2.1 = true) →
    forwarded ((l.foldl (fun w q => clientQueue w q.1 q.2.1 q.2.2.1) w).conns c) = forwarded (w.conns c) ++ mine c l
  | [], w, _, _, _, _, _ => by simp [mine]
  | q :: l, w, h1, h2, h3, h4, h5 => by
    simp only [List.length_cons] at h4
    have hn := clientQueue_next w q.1 q.2.1 q.2.2.1
    have hl := clientQueue_link w q.1 q.2.1 q.2.2.1 c
    simp only [List.foldl_cons]
    rw [foldl_forwards c n l _ (by rw [hl.1]; exact h1) (by rw [hl.2]; exact h2) (by omega) (by omega) fun x hx => h5 x (by simp [hx])]
    by_cases hq : q.1 = c
    · have h6 := h5 q (by simp) hq
      rw [hq, clientQueue_forwards w c q.2.1 q.2.2.1 h1 h2 h6.1 (h6.2 _ h3 (by omega))]
      simp [mine, hq]
    · rw [clientQueue_other w q.2.1 q.2.2.1 (Ne.symm hq)]
      simp [mine, hq]

theorem foldl_link (c : Nat) : ∀ (l : List (Nat × Nat × Obj × Controls)) (w : World),
    ((l.foldl (fun w q => clientQueue w q.1 q.2.1 q.2.2.1) w).conns c).client = (w.conns c).client ∧
    ((l.foldl (fun w q => clientQueue w q.1 q.2.1 q.2.2.1) w).conns c).upConnected = (w.conns c).upConnected
  | [], w => ⟨rfl, rfl⟩
  | q :: l, w => by
    obtain ⟨a, b⟩ := foldl_link c l (clientQueue w q.1 q.2.1 q.2.2.1)
    have hl := clientQueue_link w q.1 q.2.1 q.2.2.1 c
    exact ⟨a.trans hl.1, b.trans hl.2⟩

/-- Whose waiting requests there are: those of other connections only. -/
theorem foldl_other (c : Nat) : ∀ (l : List (Nat × Nat × Obj × Controls)) (w : World), (∀ q ∈ l, q.1 ≠ c) →
    (l.foldl (fun w q => clientQueue w q.1 q.2.1 q.2.2.1) w).conns c = w.conns c
  | [], w, _ => rfl
  | q :: l, w, h => by
    simp only [List.foldl_cons]
    rw [foldl_other c l _ fun x hx => h x (by simp [hx]), clientQueue_other w _ _ (Ne.symm (h q (by simp)))]

/-- An event of another connection that is not its link coming up changes nothing here. -/
def about : Event → Nat
  | .opened c | .up c | .failed c | .upLost c | .request c .. | .response c .. | .lost c => c

theorem step_other (w : World) (c : Nat) (e : Event) (ha : about e ≠ c) (hu : ∀ j, e ≠ .up j) :
    (step w e).conns c = w.conns c ∧ mine c (step w e).waiting = mine c w.waiting := by
  have ha' : c ≠ about e := Ne.symm ha
  cases e with
  | up j => exact absurd rfl (hu j)
  | opened j =>
    show (if _ then _ else _ : World).conns c = _ ∧ mine c (if _ then _ else _ : World).waiting = _
    split
    · exact ⟨rfl, rfl⟩
    · exact ⟨set_other _ _ ha', rfl⟩
  | failed j =>
    show (if _ then _ else _ : World).conns c = _ ∧ mine c (if _ then _ else _ : World).waiting = _
    split
    · exact ⟨set_other _ _ ha', rfl⟩
    · exact ⟨rfl, rfl⟩
  | upLost j =>
    show (if _ then _ else _ : World).conns c = _ ∧ mine c (if _ then _ else _ : World).waiting = _
    split
    · exact ⟨set_other _ _ ha', rfl⟩
    · exact ⟨rfl, rfl⟩
  | response j m op =>
    show (if _ then _ else _ : World).conns c = _ ∧ mine c (if _ then _ else _ : World).waiting = _
    split
    · exact ⟨set_other _ _ ha', rfl⟩
    · exact ⟨rfl, rfl⟩
  | lost j =>
    show (if _ then _ else _ : World).conns c = _ ∧ mine c (if _ then _ else _ : World).waiting = _
    split
    · unfold lost
      simp only
      split
      · exact ⟨set_other _ _ ha', rfl⟩
      · exact ⟨set_other _ _ ha', rfl⟩
    · exact ⟨rfl, rfl⟩
  | request j id op k =>
    have hj : c ≠ j := ha'
    show (if _ then _ else _ : World).conns c = _ ∧ mine c (if _ then _ else _ : World).waiting = _
    split
    · unfold receive whenConnected
      simp only
      split
      · rw [clientQueue_other _ _ _ hj, clientQueue_waiting]
        exact ⟨set_other _ _ hj, rfl⟩
      · refine ⟨set_other _ _ hj, ?_⟩
        simp [mine, World.set, Ne.symm hj]
    · exact ⟨rfl, rfl⟩

/-! ### The waiting list -/

/-- While its link is not up, a connection has no request of its own on the wire, and its state is known. -/
structure Waits (c : Nat) (es : List Event) (w : World) : Prop where
  there : (w.conns c).alive = true
  opened : (w.conns c).opened = true
  settled : (w.conns c).settled = false
  client : (w.conns c).client = false
  nothing : (w.conns c).wrote = []
  queue : mine c w.waiting = numbered (received c es)
  kinds : ∀ q ∈ w.waiting, q.1 = c → ∃ id, .request c id q.2.2.1 q.2.2.2 ∈ es ∧ isRequest q.2.2.1 = true

theorem numbered_snoc (l : List (PyVal × Obj)) (x : PyVal × Obj) : numbered (l ++ [x]) = numbered l ++ [(l.length, x.2)] := by
  simp [numbered, List.zipIdx_append]

theorem Waits.step {c : Nat} {es : List Event} {w : World} (hi : Inv es w) (h : Waits c es w) (e : Event)
    (h1 : otherUp c e = false ∨ received c es = []) (h2 : e ≠ .up c) (h3 : e ≠ .failed c) (h4 : e ≠ .lost c) :
    Waits c (es ++ [e]) (Proxy.step w e) := by
  have hp : phase c es = .there := by have := hi.alive c; rw [h.there] at this; simpa using this.symm
  by_cases hu : ∃ j, e = .up j
  · obtain ⟨j, rfl⟩ := hu
    have hj : j ≠ c := fun e => h2 (by rw [e])
    have hr : received c es = [] := by
      rcases h1 with h1 | h1
      · simp [otherUp, hj] at h1
      · exact h1
    have hrc : received c (es ++ [.up j]) = [] := by rw [received_snoc, hr, hp]; rfl
    have hm : ∀ q ∈ w.waiting, q.1 ≠ c := by
      intro q hq e
      have hq' := h.queue
      rw [hr] at hq'
      simp only [numbered, List.zipIdx_nil, List.map_nil, mine, List.map_eq_nil_iff, List.filter_eq_nil_iff] at hq'
      exact hq' q hq (by simpa using e)
    show Waits c _ (if _ then _ else _)
    split
    · have hx : (up w j).conns c = w.conns c := by
        unfold up
        rw [foldl_other c _ _ hm]
        exact set_other _ _ (Ne.symm hj)
      have hw : (up w j).waiting = [] := (foldl_next w.waiting _).2.2
      refine ⟨by rw [hx]; exact h.there, by rw [hx]; exact h.opened, by rw [hx]; exact h.settled, by rw [hx]; exact h.client, by rw [hx]; exact h.nothing, by rw [hw, hrc]; rfl, by rw [hw]; simp⟩
    · refine ⟨h.there, h.opened, h.settled, h.client, h.nothing, by rw [hrc, h.queue, hr], fun q hq hc => ?_⟩
      exact absurd hc (hm q hq)
  · have hu : ∀ j, e ≠ .up j := fun j ej => hu ⟨j, ej⟩
    by_cases ha : about e = c
    · -- an event of this connection
      cases e with
      | up j => exact absurd rfl (hu j)
      | failed j => exact absurd (by rw [show j = c from ha]) h3
      | lost j => exact absurd (by rw [show j = c from ha]) h4
      | opened j =>
        obtain rfl : j = c := ha
        have hrc : received j (es ++ [.opened j]) = received j es := by rw [received_snoc, hp]; simp [gain]
        have e : Proxy.step w (.opened j) = w := if_pos h.opened
        rw [e]
        exact ⟨h.there, h.opened, h.settled, h.client, h.nothing, by rw [hrc, h.queue], fun q hq hc => by obtain ⟨id, a, b⟩ := h.kinds q hq hc; exact ⟨id, by simp [a], b⟩⟩
      | upLost j =>
        obtain rfl : j = c := ha
        have hrc : received j (es ++ [.upLost j]) = received j es := by rw [received_snoc, hp]; simp [gain]
        have e : Proxy.step w (.upLost j) = w := if_neg fun hx => by have := hi.linked' j hx; rw [h.settled] at this; cases this
        rw [e]
        exact ⟨h.there, h.opened, h.settled, h.client, h.nothing, by rw [hrc, h.queue], fun q hq hc => by obtain ⟨id, a, b⟩ := h.kinds q hq hc; exact ⟨id, by simp [a], b⟩⟩
      | response j m op =>
        obtain rfl : j = c := ha
        have hrc : received j (es ++ [.response j m op]) = received j es := by rw [received_snoc, hp]; simp [gain]
        have e : Proxy.step w (.response j m op) = w := if_neg fun hx => by have := hi.linked' j hx; rw [h.settled] at this; cases this
        rw [e]
        exact ⟨h.there, h.opened, h.settled, h.client, h.nothing, by rw [hrc, h.queue], fun q hq hc => by obtain ⟨id, a, b⟩ := h.kinds q hq hc; exact ⟨id, by simp [a], b⟩⟩
      | request j id op k =>
        obtain rfl : j = c := ha
        show Waits j _ (if _ then _ else _)
        split
        · rename_i hc
          have hc : ((w.conns j).alive = true ∧ isRequest op = true) ∧ id ≠ .int 0 := by simpa using hc
          have hrc : received j (es ++ [.request j id op k]) = received j es ++ [(id, op)] := by
            rw [received_snoc, hp]; simp [gain, hc.1.2, hc.2]
          have hlen : (w.conns j).requests.length = (received j es).length := by rw [hi.requests j]; simp
          unfold receive whenConnected
          simp only [set_self, h.client]
          refine ⟨?_, ?_, ?_, ?_, ?_, ?_, ?_⟩
          · simpa [World.set] using h.there
          · simpa [World.set] using h.opened
          · simpa [World.set] using h.settled
          · simpa [World.set] using h.client
          · simpa [World.set] using h.nothing
          · rw [hrc, numbered_snoc, ← h.queue]
            simp [World.set, mine, hlen]
          · intro q hq hc'
            simp only [World.set, Bool.false_eq_true, if_false, List.mem_append, List.mem_singleton] at hq
            rcases hq with hq | rfl
            · obtain ⟨id', a, b⟩ := h.kinds q hq hc'
              exact ⟨id', by simp [a], b⟩
            · exact ⟨id, by simp, hc.1.2⟩
        · rename_i hc
          have hrc : received j (es ++ [.request j id op k]) = received j es := by
            rw [received_snoc, hp]
            simp only [gain]
            rw [if_neg, List.append_nil]
            intro hh
            refine hc ?_
            rw [h.there]
            simpa using hh
          exact ⟨h.there, h.opened, h.settled, h.client, h.nothing, by rw [hrc, h.queue], fun q hq hc => by obtain ⟨id, a, b⟩ := h.kinds q hq hc; exact ⟨id, by simp [a], b⟩⟩
    · obtain ⟨hx, hw⟩ := step_other w c e ha hu
      have hrc : received c (es ++ [e]) = received c es := by
        rw [received_snoc, hp]
        cases e <;> simp_all [gain, about]
      refine ⟨by rw [hx]; exact h.there, by rw [hx]; exact h.opened, by rw [hx]; exact h.settled, by rw [hx]; exact h.client, by rw [hx]; exact h.nothing, by rw [hw, hrc, h.queue], fun q hq hc => ?_⟩
      have hmem : (q.2.1, q.2.2.1) ∈ mine c (Proxy.step w e).waiting := by
        simp only [mine, List.mem_map, List.mem_filter]
        exact ⟨q, ⟨hq, by simpa using hc⟩, rfl⟩
      have : q ∈ w.waiting := by
        cases e with
        | up j => exact absurd rfl (hu j)
        | opened j => simp only [Proxy.step] at hq; split at hq <;> exact hq
        | failed j => simp only [Proxy.step] at hq; split at hq <;> exact hq
        | upLost j => simp only [Proxy.step] at hq; split at hq <;> exact hq
        | response j m op => simp only [Proxy.step] at hq; split at hq <;> exact hq
        | lost j =>
          simp only [Proxy.step] at hq
          split at hq
          · unfold lost at hq
            simp only at hq
            split at hq <;> exact hq
          · exact hq
        | request j id op k =>
          have hj : j ≠ c := ha
          simp only [Proxy.step] at hq
          split at hq
          · unfold receive whenConnected at hq
            simp only at hq
            split at hq
            · rw [clientQueue_waiting] at hq; exact hq
            · simp only [World.set, List.mem_append, List.mem_singleton] at hq
              rcases hq with hq | rfl
              · exact hq
              · exact absurd hc hj
          · exact hq
      obtain ⟨id, a, b⟩ := h.kinds q this hc
      exact ⟨id, by simp [a], b⟩

theorem received_before {es : List Event} {w : World} (hi : Inv es w) {c : Nat} (h : phase c es = .before) : received c es = [] := by
  have ho : (w.conns c).opened = false := by rw [hi.opened c, h]; rfl
  have hr := hi.requests c
  rw [hi.closed c ho] at hr
  simpa [PConn.fresh] using hr.symm

/-- Before its link is up a connection is either not made, or waits. -/
def Early (c : Nat) (es : List Event) (w : World) : Prop := phase c es = .before ∨ Waits c es w

theorem Early.step {c : Nat} {es : List Event} {w : World} (hi : Inv es w) (h : Early c es w) (e : Event)
    (h1 : otherUp c e = false ∨ received c es = []) (h2 : e ≠ .up c) (h3 : e ≠ .failed c) (h4 : e ≠ .lost c) :
    Early c (es ++ [e]) (Proxy.step w e) := by
  rcases h with h | h
  · by_cases he : e = .opened c
    · subst he
      refine .inr ?_
      have ho : (w.conns c).opened = false := by rw [hi.opened c, h]; rfl
      have es' : Proxy.step w (.opened c) = made w c := if_neg (by rw [ho]; simp)
      have hr := received_before hi h
      have hrc : received c (es ++ [.opened c]) = [] := by rw [received_snoc, hr, h]; rfl
      rw [es']
      have hm : ∀ q ∈ w.waiting, q.1 ≠ c := by
        intro q hq e
        obtain ⟨id, hid⟩ := hi.waiting q hq
        rw [e, hr] at hid
        simp at hid
      refine ⟨by simp [made], by simp [made], by simp [made, PConn.fresh], by simp [made, PConn.fresh], by simp [made, PConn.fresh], ?_, fun q hq hc => absurd hc (hm q hq)⟩
      rw [hrc]
      simp only [numbered, List.zipIdx_nil, List.map_nil, mine, List.map_eq_nil_iff, List.filter_eq_nil_iff]
      intro q hq
      simpa using hm q hq
    · refine .inl ?_
      rw [phase_snoc, h]
      cases e <;> simp_all [next]
  · exact .inr (h.step hi e h1 h2 h3 h4)

theorem early_foldl (c : Nat) : ∀ (fs : List Event) {es : List Event} {w : World}, Inv es w → Early c es w →
    .up c ∉ fs → .failed c ∉ fs → .lost c ∉ fs →
    (∀ a j b, fs = a ++ .up j :: b → received c (es ++ a) = []) → Early c (es ++ fs) (fs.foldl step w)
  | [], es, w, _, h, _, _, _, _ => by simpa using h
  | e :: fs, es, w, hi, h, h1, h2, h3, h4 => by
    have hu : otherUp c e = false ∨ received c es = [] := by
      cases e with
      | up j => exact .inr (by simpa using h4 [] j fs rfl)
      | _ => exact .inl rfl
    have := early_foldl c fs (hi.step e) (h.step hi e hu (fun x => h1 (by simp [x])) (fun x => h2 (by simp [x])) (fun x => h3 (by simp [x])))
      (fun x => h1 (by simp [x])) (fun x => h2 (by simp [x])) (fun x => h3 (by simp [x]))
      (fun a j b hab => by have := h4 (e :: a) j b (by rw [hab]; rfl); simpa using this)
    simpa using this

/-! ### While the link is up -/

/-- The link is up: what is forwarded are the first requests and all those after the `k`-th. -/
structure Through (c k : Nat) (base : List (Nat × Obj)) (es : List Event) (w : World) : Prop where
  there : (w.conns c).alive = true
  client : (w.conns c).client = true
  none : mine c w.waiting = []
  long : k ≤ (received c es).length
  all : (w.conns c).upConnected = true → forwarded (w.conns c) = base ++ (numbered (received c es)).drop k

theorem numbered_length (l : List (PyVal × Obj)) : (numbered l).length = l.length := by simp [numbered]

theorem not_mine {c : Nat} {l : List (Nat × Nat × Obj × Controls)} (h : mine c l = []) : ∀ q ∈ l, q.1 ≠ c := by
  intro q hq e
  simp only [mine, List.map_eq_nil_iff, List.filter_eq_nil_iff] at h
  exact h q hq (by simpa using e)

theorem Through.step {c k : Nat} {base : List (Nat × Obj)} {es : List Event} {w : World} (hi : Inv es w)
    (hl : Low es.length w) (h : Through c k base es w) (e : Event) (h4 : e ≠ .lost c) (hf : Fits c (es.length + 1) [e]) :
    Through c k base (es ++ [e]) (Proxy.step w e) := by
  have hp : phase c es = .there := by have := hi.alive c; rw [h.there] at this; simpa using this.symm
  have hse := hi.linked c h.client
  have hop : (w.conns c).opened = true := by rw [hi.opened c, hp]; rfl
  by_cases hr : gain c .there e = []
  · have hrc : received c (es ++ [e]) = received c es := by rw [received_snoc, hp, hr]; simp
    have keep : ∀ v : World, (v.conns c).alive = true → (v.conns c).client = true → mine c v.waiting = [] →
        ((v.conns c).upConnected = true → (w.conns c).upConnected = true ∧ (v.conns c).wrote = (w.conns c).wrote) →
        Through c k base (es ++ [e]) v := by
      intro v a1 a2 a3 a4
      refine ⟨a1, a2, a3, by rw [hrc]; exact h.long, fun hu => ?_⟩
      obtain ⟨b1, b2⟩ := a4 hu
      rw [hrc, ← h.all b1]
      simp [forwarded, b2]
    have keep' : Through c k base (es ++ [e]) w := keep w h.there h.client h.none fun hu => ⟨hu, rfl⟩
    by_cases hu : ∃ j, e = .up j
    · obtain ⟨j, rfl⟩ := hu
      show Through _ _ _ _ (if _ then _ else _)
      split
      · rename_i hc
        have hj : j ≠ c := by
          rintro rfl
          rw [hse] at hc
          simp at hc
        have hx : (up w j).conns c = w.conns c := by
          unfold up
          rw [foldl_other c _ _ (not_mine h.none)]
          exact set_other _ _ (Ne.symm hj)
        have hw : (up w j).waiting = [] := (foldl_next w.waiting _).2.2
        exact keep _ (by rw [hx]; exact h.there) (by rw [hx]; exact h.client) (by rw [hw]; rfl) (by rw [hx]; exact fun hu => ⟨hu, rfl⟩)
      · exact keep'
    · have hu : ∀ j, e ≠ .up j := fun j ej => hu ⟨j, ej⟩
      by_cases ha : about e = c
      · cases e with
        | up j => exact absurd rfl (hu j)
        | lost j => exact absurd (by rw [show j = c from ha]) h4
        | opened j =>
          obtain rfl : j = c := ha
          have e : Proxy.step w (.opened j) = w := if_pos hop
          rw [e]
          exact keep'
        | failed j =>
          obtain rfl : j = c := ha
          have e : Proxy.step w (.failed j) = w := if_neg (by rw [hse]; simp)
          rw [e]
          exact keep'
        | upLost j =>
          obtain rfl : j = c := ha
          show Through _ _ _ _ (if _ then _ else _)
          split
          · exact keep _ (by simpa [PConn.down] using h.there) (by simpa [PConn.down] using h.client) h.none (by simp [PConn.down])
          · exact keep'
        | response j m op =>
          obtain rfl : j = c := ha
          show Through _ _ _ _ (if _ then _ else _)
          split
          · rename_i hup
            have dn := keep (w.set j (w.conns j).down) (by simpa [PConn.down] using h.there) (by simpa [PConn.down] using h.client) h.none (by simp [PConn.down])
            have st := keep (w.set j (w.conns j)) (by simpa using h.there) (by simpa using h.client) h.none (by simp)
            unfold response
            split
            · split
              · exact st
              · split
                · exact dn
                · split
                  · exact st
                  · unfold gotResponse
                    split
                    · exact keep _ (by simpa using h.there) (by simpa using h.client) h.none (by simp)
                    · exact dn
            · exact dn
          · exact keep'
        | request j id op k' =>
          obtain rfl : j = c := ha
          have e : Proxy.step w (.request j id op k') = w := by
            refine if_neg fun hc => ?_
            rw [h.there] at hc
            have hc : isRequest op = true ∧ id ≠ .int 0 := by simpa using hc
            simp [gain, hc.1, hc.2] at hr
          rw [e]
          exact keep'
      · obtain ⟨hx, hw⟩ := step_other w c e ha hu
        exact keep _ (by rw [hx]; exact h.there) (by rw [hx]; exact h.client) (by rw [hw]; exact h.none) (by rw [hx]; exact fun hu => ⟨hu, rfl⟩)
  · cases e with
    | request j id op k' =>
      have hr : (j = c ∧ isRequest op = true) ∧ id ≠ .int 0 := by
        refine Classical.byContradiction fun hn => hr ?_
        simp only [gain]
        rw [if_neg]
        intro hh
        exact hn (by simpa using hh)
      obtain ⟨⟨rfl, ho⟩, hid⟩ := hr
      have hrc : received j (es ++ [.request j id op k']) = received j es ++ [(id, op)] := by
        rw [received_snoc, hp]; simp [gain, ho, hid]
      have hlen : (w.conns j).requests.length = (received j es).length := by rw [hi.requests j]; simp
      have es' : Proxy.step w (.request j id op k') = receive w j id op k' := if_pos (by rw [h.there, ho]; simpa using hid)
      let v : World := w.set j { w.conns j with requests := (w.conns j).requests ++ [id], unbound := unbinds op (w.conns j).unbound }
      have v1 : v.conns j = { w.conns j with requests := (w.conns j).requests ++ [id], unbound := unbinds op (w.conns j).unbound } := by
        simp [v, World.set]
      have v2 : v.waiting = w.waiting := rfl
      have v3 : v.nextId = w.nextId := rfl
      have er : receive w j id op k' = clientQueue v j (w.conns j).requests.length op := by
        unfold receive whenConnected
        exact if_pos (by rw [set_self]; exact h.client)
      clear_value v
      rw [es', er]
      have l1 := hl.low
      have l2 := hl.pos
      obtain ⟨o, x, e2⟩ := clientQueue_self v j (w.conns j).requests.length op
      refine ⟨by rw [e2, v1]; exact h.there, by rw [e2, v1]; exact h.client, by rw [clientQueue_waiting, v2]; exact h.none, by rw [hrc]; simp; have := h.long; omega, ?_⟩
      intro hu
      have hu' : (w.conns j).upConnected = true := by rw [e2, v1] at hu; exact hu
      rw [clientQueue_forwards v j _ op (by rw [v1]; exact h.client) (by rw [v1]; exact hu') ho
        (by refine hf id op k' (by simp) _ ?_ ?_ <;> rw [v3] <;> omega), hrc, numbered_snoc,
        List.drop_append_of_le_length (by rw [numbered_length]; exact h.long), ← List.append_assoc, ← h.all hu', hlen, v1]
      simp [forwarded]
    | _ => exact absurd rfl hr

theorem through_foldl (c k : Nat) (base : List (Nat × Obj)) : ∀ (fs : List Event) {es : List Event} {w : World}, Inv es w →
    Low es.length w → Through c k base es w → .lost c ∉ fs → Fits c (es.length + fs.length) fs →
    Through c k base (es ++ fs) (fs.foldl step w)
  | [], es, w, _, _, h, _, _ => by simpa using h
  | e :: fs, es, w, hi, hl, h, h1, h2 => by
    have h3 : Fits c (es.length + 1) [e] := fun id op k hm m a b => by
      refine h2 id op k (by simp_all) m a ?_
      simp only [List.length_cons]
      omega
    have h4 : Low (es ++ [e]).length (step w e) := by simpa using hl.step e
    have := through_foldl c k base fs (hi.step e) h4 (h.step hi hl e (fun x => h1 (by simp [x])) h3) (fun x => h1 (by simp [x]))
      (fun id op k hm m a b => h2 id op k (by simp [hm]) m a (by simp only [List.length_append, List.length_cons, List.length_nil] at b ⊢; omega))
    simpa using this

/-- While its link is up no request of a connection waits. -/
theorem linked_none (es : List Event) (c : Nat) : ((run es).conns c).client = true → mine c (run es).waiting = [] := by
  have H : ∀ (fs : List Event) (es : List Event) (w : World), Inv es w → (((w.conns c).client = true) → mine c w.waiting = []) →
      ((fs.foldl step w).conns c).client = true → mine c (fs.foldl step w).waiting = [] := by
    intro fs
    induction fs with
    | nil => exact fun _ _ _ h => h
    | cons e fs ih =>
      intro es w hi h
      refine ih (es ++ [e]) (step w e) (hi.step e) ?_
      by_cases hu : ∃ j, e = .up j
      · obtain ⟨j, rfl⟩ := hu
        show (((if _ then _ else _ : World).conns c).client = true → mine c (if _ then _ else _ : World).waiting = _)
        split
        · have hw : (up w j).waiting = [] := (foldl_next w.waiting _).2.2
          rw [hw]
          exact fun _ => rfl
        · exact h
      · have hu : ∀ j, e ≠ .up j := fun j ej => hu ⟨j, ej⟩
        by_cases ha : about e = c
        · cases e with
          | up j => exact absurd rfl (hu j)
          | lost j =>
            obtain rfl : j = c := ha
            show (((if _ then _ else _ : World).conns j).client = true → mine j (if _ then _ else _ : World).waiting = _)
            split
            · unfold lost
              simp only
              split
              · simp [World.set]
              · rename_i hc
                simp only [set_self]
                exact fun x => absurd x hc
            · exact h
          | opened j =>
            obtain rfl : j = c := ha
            show (((if _ then _ else _ : World).conns j).client = true → mine j (if _ then _ else _ : World).waiting = _)
            split
            · exact h
            · simp [made, PConn.fresh]
          | failed j =>
            obtain rfl : j = c := ha
            show (((if _ then _ else _ : World).conns j).client = true → mine j (if _ then _ else _ : World).waiting = _)
            split
            · simpa [World.set] using h
            · exact h
          | upLost j =>
            obtain rfl : j = c := ha
            show (((if _ then _ else _ : World).conns j).client = true → mine j (if _ then _ else _ : World).waiting = _)
            split
            · simpa [World.set, PConn.down] using h
            · exact h
          | response j m op =>
            obtain rfl : j = c := ha
            show (((if _ then _ else _ : World).conns j).client = true → mine j (if _ then _ else _ : World).waiting = _)
            split
            · have e : (response (w.conns j) m op).client = (w.conns j).client := by
                unfold response
                split
                · split
                  · rfl
                  · split
                    · rfl
                    · split
                      · rfl
                      · unfold gotResponse
                        split <;> rfl
                · rfl
              simp only [set_self, e]
              exact h
            · exact h
          | request j id op k =>
            obtain rfl : j = c := ha
            show (((if _ then _ else _ : World).conns j).client = true → mine j (if _ then _ else _ : World).waiting = _)
            split
            · unfold receive whenConnected
              simp only [set_self]
              split
              · rename_i hc
                rw [clientQueue_waiting]
                exact fun _ => h hc
              · rename_i hc
                simp only [set_self]
                exact fun x => absurd x hc
            · exact h
        · obtain ⟨hx, hw⟩ := step_other w c e ha hu
          rw [hx, hw]
          exact h
  exact H es [] .initial inv_initial (by simp [World.initial, mine])

theorem phase_not_gone (es : List Event) (c : Nat) (h : .lost c ∉ es) : phase c es ≠ .gone := by
  have H : ∀ (l : List Event) (p : Phase), p ≠ .gone → .lost c ∉ l → l.foldl (next c) p ≠ .gone := by
    intro l
    induction l with
    | nil => exact fun _ h _ => h
    | cons e l ih =>
      intro p hp hl
      refine ih _ ?_ fun x => hl (by simp [x])
      have he : e ≠ .lost c := fun x => hl (by simp [x])
      cases p with
      | gone => exact absurd rfl hp
      | before => cases e <;> simp [next]; split <;> simp
      | there =>
        cases e <;> simp [next]
        rintro rfl
        exact he rfl
  exact H es .before (by simp) h

/-- Whatever other connections do, the requests received while the link is up are forwarded over it, in order, as long
as the client and the link are there. -/
theorem forwarded_after (pre post : List Event) (c : Nat) (hup : ((run pre).conns c).client = true)
    (hthere : .lost c ∉ pre ++ post) (hlink : ((run (pre ++ post)).conns c).upConnected = true)
    (hfit : Fits c (pre ++ post).length post) :
    forwarded ((run (pre ++ post)).conns c) =
      forwarded ((run pre).conns c) ++ (numbered (received c (pre ++ post))).drop (received c pre).length := by
  have hi := inv_run pre
  have halive : phase c pre = .there := by
    have h1 : phase c pre ≠ .before := by
      intro hb
      have := hi.closed c (by rw [hi.opened c, hb]; rfl)
      rw [this] at hup
      cases hup
    have h2 := phase_not_gone pre c fun x => hthere (by simp [x])
    cases hp : phase c pre with
    | before => exact absurd hp h1
    | there => rfl
    | gone => exact absurd hp h2
  have hs : Through c (received c pre).length (forwarded ((run pre).conns c)) pre (run pre) := by
    refine ⟨by rw [hi.alive c, halive]; rfl, hup, linked_none pre c hup, Nat.le_refl _, fun _ => ?_⟩
    rw [List.drop_of_length_le (by rw [numbered_length]; exact Nat.le_refl _)]
    simp
  have := through_foldl c _ _ post hi (low_run pre) hs (fun x => hthere (by simp [x])) (by rwa [List.length_append] at hfit)
  have e : run (pre ++ post) = post.foldl step (run pre) := by simp [run]
  rw [e] at hlink ⊢
  exact this.all hlink

/-- All requests of a connection are forwarded over its link, in order, if no other link comes up between its first
request and its own link, and as long as the client and the link are there. -/
theorem isolated_partial (pre post : List Event) (c : Nat) (hopen : .opened c ∈ pre) (hfirst : .up c ∉ pre) (hfail : .failed c ∉ pre)
    (hthere : .lost c ∉ pre ++ .up c :: post) (hother : ∀ a j b, pre = a ++ .up j :: b → received c a = [])
    (hlink : ((run (pre ++ .up c :: post)).conns c).upConnected = true)
    (hfit : Fits c (pre ++ .up c :: post).length (pre ++ .up c :: post)) :
    forwarded ((run (pre ++ .up c :: post)).conns c) = numbered (received c (pre ++ .up c :: post)) := by
  have hi := inv_run pre
  have hE : Early c pre (run pre) := by
    have := early_foldl c pre inv_initial (.inl rfl : Early c [] World.initial) hfirst hfail (fun x => hthere (by simp [x])) (by simpa using hother)
    simpa [run] using this
  have hph : phase c pre ≠ .before := by
    obtain ⟨a, b, hab⟩ := List.append_of_mem hopen
    have keep : ∀ (l : List Event) (p : Phase), p ≠ .before → l.foldl (next c) p ≠ .before := by
      intro l
      induction l with
      | nil => exact fun _ h => h
      | cons e l ih =>
        intro p hp
        refine ih _ ?_
        cases p with
        | before => exact absurd rfl hp
        | gone => simp [next]
        | there =>
          unfold next
          split <;> simp_all
          split <;> simp
    rw [hab]
    simp only [phase, List.foldl_append, List.foldl_cons]
    refine keep b _ ?_
    cases a.foldl (next c) .before <;> simp [next]
  have hw : Waits c pre (run pre) := hE.resolve_left hph
  have hn : gain c (phase c pre) (.up c) = [] := by cases phase c pre <;> rfl
  have hrc : received c (pre ++ [.up c]) = received c pre := by rw [received_snoc, hn]; simp
  have hs : Through c 0 [] (pre ++ [.up c]) (step (run pre) (.up c)) := by
    have es' : step (run pre) (.up c) = up (run pre) c := if_pos (by rw [hw.opened, hw.settled]; rfl)
    rw [es']
    have hl := low_run pre
    have l1 := hl.low
    have l2 := hl.pos
    refine ⟨?_, ?_, ?_, by simp, fun _ => ?_⟩
    · rw [← es', (hi.step (.up c)).alive c, phase_snoc]
      have : phase c pre = .there := by have := hi.alive c; rw [hw.there] at this; simpa using this.symm
      rw [this]
      rfl
    · unfold up
      rw [(foldl_link c _ _).1]
      simp [World.set]
    · have : (up (run pre) c).waiting = [] := (foldl_next (run pre).waiting _).2.2
      rw [this]
      rfl
    · unfold up
      rw [foldl_forwards c (pre ++ .up c :: post).length _ _ (by simp [World.set]) (by simp [World.set]) (by simpa [World.set] using l2)]
      · rw [hw.queue, hrc]
        simp [World.set, forwarded, hw.nothing]
      · simp only [World.set, List.length_append, List.length_cons]
        omega
      · intro q hq hc
        obtain ⟨id, a, b⟩ := hw.kinds q hq hc
        exact ⟨b, hfit id _ q.2.2.2 (by simp [a])⟩
  have := through_foldl c 0 [] post (hi.step (.up c)) (by simpa using (low_run pre).step (.up c)) hs (fun x => hthere (by simp [x]))
    (fun id op k hm m a b => hfit id op k (by simp [hm]) m a (by simp only [List.length_append, List.length_cons, List.length_nil] at b ⊢; omega))
  have e : run (pre ++ .up c :: post) = post.foldl step (step (run pre) (.up c)) := by simp [run]
  rw [e] at hlink ⊢
  have r := this.all hlink
  simpa using r

/-! ### What goes wrong -/

/-- No request of the connection before the `k`-th is forwarded or waits. -/
structure Forgot (c k : Nat) (w : World) : Prop where
  wrote : ∀ x ∈ (w.conns c).wrote, k ≤ x.r
  waiting : ∀ q ∈ w.waiting, q.1 = c → k ≤ q.2.1
  long : k ≤ (w.conns c).requests.length

theorem Forgot.clientQueue {c k : Nat} {w : World} (h : Forgot c k w) (j r : Nat) (op : Obj) (hr : j = c → k ≤ r) :
    Forgot c k (clientQueue w j r op) := by
  by_cases hj : j = c
  · subst hj
    unfold Proxy.clientQueue
    simp only
    split
    · split
      · exact h
      · refine ⟨fun x hx => ?_, h.waiting, by simpa [World.set] using h.long⟩
        simp only [World.set, if_true] at hx
        split at hx
        · rcases List.mem_append.mp hx with hx | hx
          · exact h.wrote x hx
          · simp only [List.mem_singleton] at hx
            subst hx
            exact hr rfl
        · exact h.wrote x hx
    · exact h
  · have e := clientQueue_other w r op (Ne.symm hj)
    exact ⟨by rw [e]; exact h.wrote, by rw [clientQueue_waiting]; exact h.waiting, by rw [e]; exact h.long⟩

theorem Forgot.all {c k : Nat} : ∀ (l : List (Nat × Nat × Obj × Controls)) {w : World}, Forgot c k w →
    (∀ q ∈ l, q.1 = c → k ≤ q.2.1) → Forgot c k (l.foldl (fun w q => Proxy.clientQueue w q.1 q.2.1 q.2.2.1) w)
  | [], _, h, _ => h
  | q :: l, _, h, hl => Forgot.all l (h.clientQueue q.1 q.2.1 q.2.2.1 (hl q (by simp))) fun x hx => hl x (by simp [hx])

theorem Forgot.put {c k : Nat} {w : World} (h : Forgot c k w) (j : Nat) (x : PConn) (n : Int)
    (h1 : x.wrote = (w.conns j).wrote) (h2 : (w.conns j).requests.length ≤ x.requests.length) :
    Forgot c k { w.set j x with nextId := n } := by
  by_cases hj : c = j
  · subst hj
    exact ⟨by simp only [set_self, h1]; exact h.wrote, h.waiting, by simp only [set_self]; have := h.long; omega⟩
  · have e := set_other w x hj
    exact ⟨by simp only [e]; exact h.wrote, h.waiting, by simp only [e]; exact h.long⟩

theorem response_keeps (x : PConn) (m : Int) (op : Obj) : (response x m op).wrote = x.wrote ∧ (response x m op).requests = x.requests := by
  unfold response
  split
  · split
    · exact ⟨rfl, rfl⟩
    · split
      · exact ⟨rfl, rfl⟩
      · split
        · exact ⟨rfl, rfl⟩
        · unfold gotResponse
          split <;> exact ⟨rfl, rfl⟩
  · exact ⟨rfl, rfl⟩

theorem Forgot.step {es : List Event} {c k : Nat} {w : World} (hi : Inv es w) (h : Forgot c k w) (e : Event) : Forgot c k (Proxy.step w e) := by
  have put := fun (j : Nat) (x : PConn) h1 h2 => (h.put j x w.nextId h1 h2 : Forgot c k (w.set j x))
  cases e with
  | opened j =>
    show Forgot _ _ (if _ then _ else _)
    split
    · exact h
    · rename_i ho
      have hf := hi.closed j (by simpa using ho)
      exact put j _ (by rw [hf]) (by rw [hf]; exact Nat.le_refl _)
  | up j =>
    show Forgot _ _ (if _ then _ else _)
    split
    · have h1 := put j { w.conns j with settled := true, client := true, upConnected := true } rfl (Nat.le_refl _)
      exact Forgot.all _ ⟨h1.wrote, by simp, h1.long⟩ h.waiting
    · exact h
  | failed j =>
    show Forgot _ _ (if _ then _ else _)
    split
    · exact put j _ rfl (Nat.le_refl _)
    · exact h
  | upLost j =>
    show Forgot _ _ (if _ then _ else _)
    split
    · exact put j _ rfl (Nat.le_refl _)
    · exact h
  | response j m op =>
    show Forgot _ _ (if _ then _ else _)
    split
    · obtain ⟨a, b⟩ := response_keeps (w.conns j) m op
      exact put j _ a (by rw [b]; exact Nat.le_refl _)
    · exact h
  | lost j =>
    show Forgot _ _ (if _ then _ else _)
    split
    · unfold lost
      simp only
      split
      · exact h.put j _ _ rfl (Nat.le_refl _)
      · exact put j _ rfl (Nat.le_refl _)
    · exact h
  | request j id op ctl =>
    show Forgot _ _ (if _ then _ else _)
    split
    · have h1 := put j { w.conns j with requests := (w.conns j).requests ++ [id], unbound := unbinds op (w.conns j).unbound } rfl (by simp)
      have hk : j = c → k ≤ (w.conns j).requests.length := by rintro rfl; exact h.long
      unfold receive whenConnected
      simp only
      split
      · exact h1.clientQueue j _ op hk
      · refine ⟨h1.wrote, fun q hq hc => ?_, h1.long⟩
        rcases List.mem_append.mp hq with hq | hq
        · exact h.waiting q hq hc
        · simp only [List.mem_singleton] at hq
          subst hq
          exact hk hc
    · exact h

/-- A link that has not come up: its connection has written nothing. -/
theorem not_up (es : List Event) (c : Nat) (h : .up c ∉ es) :
    ((run es).conns c).client = false ∧ ((run es).conns c).wrote = [] ∧
    (.failed c ∉ es → ((run es).conns c).settled = false) := by
  have H : ∀ (fs es : List Event) (w : World), Inv es w → .up c ∉ fs →
      (w.conns c).client = false → (w.conns c).wrote = [] →
      ((fs.foldl step w).conns c).client = false ∧ ((fs.foldl step w).conns c).wrote = [] ∧
      (.failed c ∉ fs → (w.conns c).settled = false → ((fs.foldl step w).conns c).settled = false) := by
    intro fs
    induction fs with
    | nil => exact fun _ _ _ _ h1 h2 => ⟨h1, h2, fun _ h => h⟩
    | cons e fs ih =>
      intro es w hi hu h1 h2
      have one : ((step w e).conns c).client = false ∧ ((step w e).conns c).wrote = [] ∧
          (e ≠ .failed c → (w.conns c).settled = false → ((step w e).conns c).settled = false) := by
        have keep : ∀ v : World, v.conns c = w.conns c → (v.conns c).client = false ∧ (v.conns c).wrote = [] ∧
            (e ≠ .failed c → (w.conns c).settled = false → (v.conns c).settled = false) :=
          fun v hv => by rw [hv]; exact ⟨h1, h2, fun _ h => h⟩
        have foldl_silent : ∀ (l : List (Nat × Nat × Obj × Controls)) (v : World), (v.conns c).client = false →
            (l.foldl (fun w q => clientQueue w q.1 q.2.1 q.2.2.1) v).conns c = v.conns c := by
          intro l
          induction l with
          | nil => exact fun _ _ => rfl
          | cons q l ihl =>
            intro v hv
            have hq : (clientQueue v q.1 q.2.1 q.2.2.1).conns c = v.conns c := by
              by_cases hqc : c = q.1
              · unfold clientQueue
                rw [← hqc]
                simp only [hv, Bool.false_and]
                rfl
              · exact clientQueue_other v _ _ hqc
            simp only [List.foldl_cons]
            rw [ihl _ (by rw [hq]; exact hv), hq]
        by_cases hx : ∃ j, e = .up j
        · obtain ⟨j, rfl⟩ := hx
          have hj : c ≠ j := fun x => hu (by simp [x])
          show ((if _ then _ else _ : World).conns c).client = false ∧ ((if _ then _ else _ : World).conns c).wrote = [] ∧
            (_ → _ → ((if _ then _ else _ : World).conns c).settled = false)
          split
          · refine keep _ ?_
            unfold up
            rw [foldl_silent _ _ (by simp only [set_other _ _ hj]; exact h1)]
            exact set_other _ _ hj
          · exact keep _ rfl
        · have hx : ∀ j, e ≠ .up j := fun j ej => hx ⟨j, ej⟩
          by_cases ha : about e = c
          · cases e with
            | up j => exact absurd rfl (hx j)
            | opened j =>
              obtain rfl : j = c := ha
              show ((if _ then _ else _ : World).conns j).client = false ∧ ((if _ then _ else _ : World).conns j).wrote = [] ∧
                (_ → _ → ((if _ then _ else _ : World).conns j).settled = false)
              split
              · exact keep _ rfl
              · simp [made, PConn.fresh]
            | failed j =>
              obtain rfl : j = c := ha
              show ((if _ then _ else _ : World).conns j).client = false ∧ ((if _ then _ else _ : World).conns j).wrote = [] ∧
                (_ → _ → ((if _ then _ else _ : World).conns j).settled = false)
              split
              · simp [World.set, h1, h2]
              · exact keep _ rfl
            | upLost j =>
              obtain rfl : j = c := ha
              show ((if _ then _ else _ : World).conns j).client = false ∧ ((if _ then _ else _ : World).conns j).wrote = [] ∧
                (_ → _ → ((if _ then _ else _ : World).conns j).settled = false)
              split
              · simp [World.set, PConn.down, h1, h2]
              · exact keep _ rfl
            | lost j =>
              obtain rfl : j = c := ha
              show ((if _ then _ else _ : World).conns j).client = false ∧ ((if _ then _ else _ : World).conns j).wrote = [] ∧
                (_ → _ → ((if _ then _ else _ : World).conns j).settled = false)
              split
              · unfold lost
                simp only [h1]
                simp [World.set, h1, h2]
              · exact keep _ rfl
            | response j m op =>
              obtain rfl : j = c := ha
              show ((if _ then _ else _ : World).conns j).client = false ∧ ((if _ then _ else _ : World).conns j).wrote = [] ∧
                (_ → _ → ((if _ then _ else _ : World).conns j).settled = false)
              split
              · rename_i hup
                have hs := hi.linked' j hup
                have e1 : (response (w.conns j) m op).client = false := by
                  unfold response
                  split
                  · split
                    · exact h1
                    · split
                      · exact h1
                      · split
                        · exact h1
                        · unfold gotResponse
                          split <;> exact h1
                  · exact h1
                rw [set_self, (response_keeps _ _ _).1]
                exact ⟨e1, h2, fun _ x => by rw [hs] at x; cases x⟩
              · exact keep _ rfl
            | request j id op k =>
              obtain rfl : j = c := ha
              show ((if _ then _ else _ : World).conns j).client = false ∧ ((if _ then _ else _ : World).conns j).wrote = [] ∧
                (_ → _ → ((if _ then _ else _ : World).conns j).settled = false)
              split
              · have : receive w j id op k = { w.set j { w.conns j with requests := (w.conns j).requests ++ [id], unbound := unbinds op (w.conns j).unbound } with waiting := w.waiting ++ [(j, (w.conns j).requests.length, op, k)] } := by
                  unfold receive whenConnected
                  exact if_neg (by rw [set_self]; simp [h1])
                rw [this]
                simp [World.set, h1, h2]
              · exact keep _ rfl
          · exact keep _ (step_other w c e ha hx).1
      obtain ⟨a, b, d⟩ := one
      obtain ⟨p, q, r⟩ := ih (es ++ [e]) (step w e) (hi.step e) (fun x => hu (by simp [x])) a b
      exact ⟨p, q, fun hf hs => r (fun x => hf (by simp [x])) (d (fun x => hf (by simp [x])) hs)⟩
  obtain ⟨a, b, d⟩ := H es [] .initial inv_initial h rfl rfl
  exact ⟨a, b, fun hf => d hf rfl⟩

theorem opened_of_mem (es : List Event) (c : Nat) (h : .opened c ∈ es) : ((run es).conns c).opened = true := by
  rw [(inv_run es).opened c]
  obtain ⟨a, b, hab⟩ := List.append_of_mem h
  have keep : ∀ (l : List Event) (p : Phase), p ≠ .before → l.foldl (next c) p ≠ .before := by
    intro l
    induction l with
    | nil => exact fun _ h => h
    | cons e l ih =>
      intro p hp
      refine ih _ ?_
      cases p with
      | before => exact absurd rfl hp
      | gone => simp [next]
      | there =>
        unfold next
        split <;> simp_all
        split <;> simp
  simp only [decide_eq_true_eq]
  rw [hab]
  simp only [phase, List.foldl_append, List.foldl_cons]
  refine keep b _ ?_
  cases a.foldl (next c) .before <;> simp [next]

/-- A connection that waits for its link loses all its requests when the link of another connection comes up: whatever
happens later, none of them is forwarded. -/
theorem queue_lost (pre post : List Event) (c j : Nat) (hc : .up c ∉ pre) (hj : j ≠ c) (hopen : .opened j ∈ pre) (hup : .up j ∉ pre)
    (hfail : .failed j ∉ pre) (x : Wrote) (hx : x ∈ ((run (pre ++ .up j :: post)).conns c).wrote) :
    (received c pre).length ≤ x.r := by
  have hi := inv_run pre
  obtain ⟨n1, n2, _⟩ := not_up pre c hc
  have hs := (not_up pre j hup).2.2 hfail
  have ho := opened_of_mem pre j hopen
  have es' : step (run pre) (.up j) = up (run pre) j := if_pos (by rw [ho, hs]; rfl)
  have n3 := not_up (pre ++ [.up j]) c (by simp [hc, Ne.symm hj])
  have er : run (pre ++ [.up j]) = up (run pre) j := by rw [← es']; simp [run]
  rw [er] at n3
  have hw : (up (run pre) j).waiting = [] := (foldl_next (run pre).waiting _).2.2
  have hi' : Inv (pre ++ [.up j]) (up (run pre) j) := by rw [← er]; exact inv_run _
  have hg : gain c (phase c pre) (.up j) = [] := by cases phase c pre <;> rfl
  have hF : Forgot c (received c pre).length (up (run pre) j) := by
    refine ⟨by rw [n3.2.1]; simp, by rw [hw]; simp, ?_⟩
    rw [hi'.requests c, received_snoc, hg]
    simp
  have H : ∀ (fs es : List Event) (w : World), Inv es w → Forgot c (received c pre).length w →
      Forgot c (received c pre).length (fs.foldl step w) := by
    intro fs
    induction fs with
    | nil => exact fun _ _ _ h => h
    | cons e fs ih => exact fun es w hi h => ih _ _ (hi.step e) (h.step hi e)
  have e : run (pre ++ .up j :: post) = post.foldl step (up (run pre) j) := by rw [← es']; simp [run]
  rw [e] at hx
  exact (H post _ _ hi' hF).wrote x hx

/-! ### Examples -/

def delete (b : UInt8) : Obj := .oct .delRequest 0x4A [b]

theorem delete_encodes (b : UInt8) (m : Int) (h : 0 ≤ m ∧ m < 2 ^ 31) : encodes (.int m) (delete b) = true :=
  encodes_op m (.delete [b]) h (by simp [Spec.Op.size, Spec.octSize, Spec.elementSize])

/-- Two clients connect, and both send a request before the link of either is up. -/
def early : List Event := [.opened 0, .opened 1, .request 0 (.int 7) (delete 1) none, .request 1 (.int 7) (delete 2) none]

/-- **The link of one connection takes the requests of the other one.**  All conditions of `isolated_partial` hold but the
one about other links, and the request of the first connection is not forwarded. -/
theorem not_isolated :
    .opened 0 ∈ early ++ [.up 1] ∧ .up 0 ∉ early ++ [.up 1] ∧ .failed 0 ∉ early ++ [.up 1] ∧ .lost 0 ∉ early ++ [.up 1, .up 0] ∧
    ((run (early ++ [.up 1, .up 0])).conns 0).upConnected = true ∧
    received 0 (early ++ [.up 1, .up 0]) = [(.int 7, delete 1)] ∧
    forwarded ((run (early ++ [.up 1, .up 0])).conns 0) = [] ∧
    forwarded ((run (early ++ [.up 1, .up 0])).conns 1) = [(0, delete 2)] := by
  have h := delete_encodes 2 1 (by decide)
  unfold delete at h
  refine ⟨by simp [early], by simp [early], by simp [early], by simp [early], ?_, ?_, ?_, ?_⟩
  · simp [early, run, step, made, receive, whenConnected, up, clientQueue, World.set, World.initial, PConn.fresh, isRequest, delete, needsAnswer]
  · simp [early, received, receivedFrom, gain, next, isRequest, delete]
  · simp [early, run, step, made, receive, whenConnected, up, clientQueue, World.set, World.initial, PConn.fresh, isRequest, delete, needsAnswer, forwarded]
  · simp [early, run, step, made, receive, whenConnected, up, clientQueue, World.set, World.initial, PConn.fresh, isRequest, delete, needsAnswer, forwarded, h]

/-- A history that meets the hypotheses of `isolated_partial`: the other link comes up before the first request, or later. -/
def fine : List Event :=
  [.opened 0, .opened 1, .up 1, .request 0 (.int 7) (delete 1) none, .request 1 (.int 7) (delete 2) none, .opened 2]

theorem fine_fits (n : Nat) (hn : n < 100) : Fits 0 n (fine ++ .up 0 :: [.up 2, .request 0 (.int 8) (delete 3) none]) := by
  intro id op k h m h1 h2
  simp only [fine, List.cons_append, List.nil_append, List.mem_cons, reduceCtorEq, Event.request.injEq, List.not_mem_nil, or_false, false_or] at h
  rcases h with ⟨_, _, rfl, _⟩ | ⟨h, _⟩ | ⟨_, _, rfl, _⟩
  · exact delete_encodes 1 m (by omega)
  · cases h
  · exact delete_encodes 3 m (by omega)

theorem fine_link : ((run (fine ++ .up 0 :: [.up 2, .request 0 (.int 8) (delete 3) none])).conns 0).upConnected = true := by
  simp [fine, run, step, made, receive, whenConnected, up, clientQueue, World.set, World.initial, PConn.fresh, isRequest, delete, needsAnswer]

example : forwarded ((run (fine ++ .up 0 :: [.up 2, .request 0 (.int 8) (delete 3) none])).conns 0) = [(0, delete 1), (1, delete 3)] := by
  rw [isolated_partial fine _ 0 (by simp [fine]) (by simp [fine]) (by simp [fine]) (by simp [fine]) ?_ fine_link (fine_fits _ (by simp [fine]))]
  · simp [fine, received, receivedFrom, gain, next, isRequest, delete, numbered, List.zipIdx]
  · intro a j b h
    unfold fine at h
    match a, h with
    | [], h => rfl
    | [x], h => simp at h
    | [x, y], h => simp at h; obtain ⟨rfl, rfl, h⟩ := h; simp [received, receivedFrom, gain, next]
    | [x, y, z], h => simp at h
    | [x, y, z, u], h => simp at h
    | [x, y, z, u, v], h => simp at h
    | x :: y :: z :: u :: v :: t :: l, h => simp at h

/-- The hypotheses of `queue_lost` can be met. -/
example : .up 0 ∉ early ∧ .opened 1 ∈ early ∧ .up 1 ∉ early ∧ .failed 1 ∉ early ∧ (received 0 early).length = 1 := by
  refine ⟨by simp [early], by simp [early], by simp [early], by simp [early], ?_⟩
  simp [early, received, receivedFrom, gain, next, isRequest, delete]

/-- The hypotheses of `forwarded_after` can be met. -/
example : ((run (fine ++ [.up 0])).conns 0).client = true ∧ .lost 0 ∉ (fine ++ [.up 0]) ++ [.up 2, .request 0 (.int 8) (delete 3) none] := by
  constructor
  · simp [fine, run, step, made, receive, whenConnected, up, clientQueue, World.set, World.initial, PConn.fresh, isRequest, delete, needsAnswer]
  · simp [fine]

def deleted : Obj := (Spec.Op.result .delete 0 [] []).build

/-- The hypotheses of `own_link` and `own_responses` can be met. -/
example : ((run [.opened 3, .up 3, .request 3 (.int 9) (delete 1) none, .response 3 1 deleted]).conns 3).wrote ≠ [] ∧
    ((run [.opened 3, .up 3, .request 3 (.int 9) (delete 1) none, .response 3 1 deleted]).conns 3).sent ≠ [] := by
  have h := delete_encodes 1 1 (by decide)
  have h' : encodes (.int 9) deleted = true := encodes_op 9 _ (by decide) (by decide)
  unfold delete at h
  have hr : isResponse deleted = true := rfl
  constructor <;>
  simp [run, step, made, receive, whenConnected, up, clientQueue, World.set, World.initial, PConn.fresh, isRequest, delete, needsAnswer, h,
    response, hr, gotResponse, h']

end Verif.C48
