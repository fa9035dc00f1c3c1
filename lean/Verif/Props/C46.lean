import Verif.Lemmas.ProxyBase
import Verif.Lemmas.Server
/-
C46: requests queued before the proxy is connected are forwarded in order.

`fifo_partial`: if the hook for requests answers at once, then for every history in which neither connection is lost, the
proxy has written to the proxied server exactly the requests of the client (as the hook changed them) in the order of
their arrival, each once, whether they came before or after the connection was up; before that it has written nothing and
queued all of them.

`failure_answers`: if the connection fails, each bind gets exactly one answer, `unavailable`; each StartTLS request has
got exactly one already, and other requests get none.

Missing from the full statement: with a hook that takes its time a later request can overtake (`hook_reorders`), and a
bind that arrives between the failure and the end of the connection is never answered (`late_bind_unanswered`).
-/
namespace Verif.C46
open Verif.Ldap Verif.Server Verif.ProxyBase Verif.Spec.ProxyBase
open Verif.Client (Controls isResponse needsAnswer startTLSOid)

theorem isStartTLS_iff (tag : UInt8) (name value : PyVal) :
    isStartTLS (.extRequest tag name value) = true ↔ name = .bytes startTLSOid := by
  have : startTLSOid = [49, 46, 51, 46, 54, 46, 49, 46, 52, 46, 49, 46, 49, 52, 54, 54, 46, 50, 48, 48, 51, 55] := by decide +kernel
  rw [this]
  simp [isStartTLS]

/-! ### What forwarding does -/

/-- The state after forwarding some requests. -/
structure Fwd (s s' : St) (l : List (Nat × Obj)) : Prop where
  conn : s'.connected = s.connected
  client : s'.client = s.client
  up : s'.upConnected = s.upConnected
  link : s'.link = s.link
  useTls : s'.useTls = s.useTls
  queued : s'.queued = s.queued
  requests : s'.requests = s.requests
  next : s'.nextId = s.nextId + l.length
  wrote : (s'.wrote.map fun w => (w.2.1, w.2.2.1)) = (s.wrote.map fun w => (w.2.1, w.2.2.1)) ++ l

theorem Fwd.refl (s : St) : Fwd s s [] := ⟨rfl, rfl, rfl, rfl, rfl, rfl, rfl, by simp, by simp⟩

theorem Fwd.trans {a b c : St} {l l' : List (Nat × Obj)} (h : Fwd a b l) (h' : Fwd b c l') : Fwd a c (l ++ l') :=
  ⟨h'.conn.trans h.conn, h'.client.trans h.client, h'.up.trans h.up, h'.link.trans h.link, h'.useTls.trans h.useTls,
    h'.queued.trans h.queued, h'.requests.trans h.requests, by rw [h'.next, h.next]; simp; omega,
    by rw [h'.wrote, h.wrote, List.append_assoc]⟩

theorem Fwd.sent {s s' : St} {l : List Sent} (h : s' = { s with sent := s.sent ++ l }) : Fwd s s' [] := by
  subst h
  exact ⟨rfl, rfl, rfl, rfl, rfl, rfl, rfl, by simp, by simp⟩

/-- Replies that can be encoded do not raise. -/
theorem reply_ok {s : St} {r : Nat} {q : Request} (hc : s.connected = true) (hq : s.requests[r]? = some q) (b : Bool) (x : Option Obj)
    (h : ∀ op, x = some op → encodes q.id op = true) : (reply s r b x).2 = false := by
  unfold reply
  cases x with
  | none => rfl
  | some op =>
    simp only [hq]
    rw [if_pos (by simp [hc, h op rfl])]

theorem replyAll_ok {r : Nat} {q : Request} : ∀ (l : List (Option Obj)) (s : St), s.connected = true → s.requests[r]? = some q →
    (∀ op, some op ∈ l → encodes q.id op = true) → (replyAll s r l).2 = false
  | [], _, _, _, _ => rfl
  | x :: l, s, hc, hq, h => by
    have h1 := reply_ok hc hq false x fun op e => h op (by rw [e]; exact List.mem_cons_self ..)
    obtain ⟨l', e, _⟩ := reply_rest s r false x
    unfold replyAll
    generalize reply s r false x = y at h1 e
    obtain ⟨s1, b⟩ := y
    simp only at h1 e
    subst h1
    refine replyAll_ok l s1 ?_ ?_ fun op hop => h op (List.mem_cons_of_mem _ hop)
    · rw [e]; exact hc
    · rw [e]; exact hq

theorem fwd_ask {H : Hooks} {n : Nat} {s : St} {q : Nat × Obj × Controls} {p : Request} (hc : s.connected = true) (hcl : s.client = true)
    (hu : s.upConnected = true) (hp : s.requests[q.1]? = some p) (h : Prompt H n p.id q) (h1 : 1 ≤ s.nextId) (hn : s.nextId ≤ n) :
    Fwd s (ask H s q.1 q.2.1 q.2.2) (hooked H q).toList := by
  obtain ⟨reps, x, e, hr, hx⟩ := h.now
  unfold ask hooked
  rw [e]
  simp only
  have hok := replyAll_ok reps s hc hp hr
  obtain ⟨l', e', _⟩ := replyAll_rest q.1 reps s
  generalize replyAll s q.1 reps = y at hok e'
  obtain ⟨s1, b⟩ := y
  simp only at hok e'
  subst hok
  refine Fwd.trans (b := s1) (l := []) (Fwd.sent e') ?_
  subst e'
  simp only
  cases x with
  | none => exact Fwd.refl _
  | some x =>
    obtain ⟨op, c⟩ := x
    obtain ⟨hx1, hx2⟩ := hx op c rfl
    unfold forwardit
    simp only
    rw [if_pos (by simp [hcl, hu])]
    cases ha : needsAnswer op with
    | none => exact absurd ha hx1
    | some a =>
      simp only
      rw [if_pos (hx2 s.nextId h1 hn)]
      exact ⟨rfl, rfl, rfl, rfl, rfl, rfl, rfl, by simp, by simp⟩

/-- Forwarding the backlog. -/
theorem fwd_foldl {H : Hooks} {n : Nat} : ∀ (l : List (Nat × Obj × Controls)) (s : St), s.connected = true → s.client = true →
    s.upConnected = true → (∀ q ∈ l, ∃ p, s.requests[q.1]? = some p ∧ Prompt H n p.id q) → 1 ≤ s.nextId → s.nextId + l.length ≤ n + 1 →
    Fwd s (l.foldl (fun s q => forward H s q.1 q.2.1 q.2.2) s) (l.filterMap (hooked H))
  | [], s, _, _, _, _, _, _ => Fwd.refl s
  | q :: l, s, hc, hcl, hu, h, h1, hn => by
    obtain ⟨p, hp, hpr⟩ := h q (List.mem_cons_self ..)
    have e : forward H s q.1 q.2.1 q.2.2 = ask H s q.1 q.2.1 q.2.2 := if_pos hcl
    have f := fwd_ask hc hcl hu hp hpr h1 (by simp at hn; omega)
    have hlen : (hooked H q).toList.length ≤ 1 := by cases hooked H q <;> simp
    rw [List.foldl_cons, e]
    have f2 := fwd_foldl l (ask H s q.1 q.2.1 q.2.2) (f.conn.trans hc) (f.client.trans hcl) (f.up.trans hu)
      (fun q' hq' => by rw [f.requests]; exact h q' (List.mem_cons_of_mem _ hq')) (by rw [f.next]; omega)
      (by rw [f.next]; simp at hn; omega)
    have : (q :: l).filterMap (hooked H) = (hooked H q).toList ++ l.filterMap (hooked H) := by
      rw [List.filterMap_cons]
      cases hooked H q <;> simp
    rw [this]
    exact f.trans f2

/-! ### The invariant -/

theorem received_append (es es' : List Event) : received (es ++ es') = received es ++ received es' := by simp [received]

theorem toForward_snoc (es : List Event) (e : Event) : toForward (es ++ [e]) = toForward es ++
    match e with
    | .request id op c => if isRequest op && id ≠ .int 0 && !isStartTLS op then [((received es).length, op, c)] else []
    | _ => [] := by
  unfold toForward
  rw [received_append, List.zipIdx_append, List.filter_append, List.map_append]
  congr 1
  generalize (received es).length = k
  cases e with
  | request id op c =>
    simp only [received, List.filterMap_cons, List.filterMap_nil]
    by_cases h : (isRequest op && id ≠ .int 0) = true
    · rw [if_pos h, h]
      cases hs : isStartTLS op <;> simp [hs]
    · rw [if_neg h]
      simp only [Bool.not_eq_true] at h
      rw [h]
      simp
  | _ => simp [received]

theorem forward_mem {es : List Event} {q : Nat × Obj × Controls} (h : q ∈ toForward es) :
    ∃ id, (received es)[q.1]? = some (id, q.2.1, q.2.2) := by
  unfold toForward at h
  obtain ⟨x, hx, rfl⟩ := List.mem_map.mp h
  have := List.mk_mem_zipIdx_iff_getElem?.mp (show (x.1, x.2) ∈ (received es).zipIdx from (List.mem_filter.mp hx).1)
  exact ⟨x.1.1, by rw [this]⟩

theorem toForward_length (es : List Event) : (toForward es).length ≤ (received es).length := by
  unfold toForward
  rw [List.length_map]
  refine Nat.le_trans (List.length_filter_le _ _) ?_
  simp

/-- All requests are such that the hook answers at once. -/
def AllPrompt (H : Hooks) (n : Nat) (es : List Event) : Prop :=
  ∀ r id op c, (received es)[r]? = some (id, op, c) → Prompt H n id (r, op, c)

structure Inv (H : Hooks) (es : List Event) (s : St) : Prop where
  conn : s.connected = true
  requests : (s.requests.map fun q => (q.id, q.asking)) = (received es).map fun x => (x.1, false)
  before : s.client = false → s.wrote = [] ∧ s.nextId = 1 ∧ (s.link ≠ .settled → s.queued = toForward es)
  after : s.client = true → s.upConnected = true ∧ s.queued = [] ∧ 1 ≤ s.nextId ∧
    s.nextId ≤ (toForward es).length + 1 ∧ (s.wrote.map fun w => (w.2.1, w.2.2.1)) = (toForward es).filterMap (hooked H) ∧ s.link = .settled

/-- What leaves the forwarding of requests alone. -/
structure Same (s s' : St) : Prop where
  conn : s'.connected = s.connected
  client : s'.client = s.client
  up : s'.upConnected = s.upConnected
  link : s'.link = s.link
  useTls : s'.useTls = s.useTls
  queued : s'.queued = s.queued
  requests : (s'.requests.map fun q => (q.id, q.asking)) = s.requests.map fun q => (q.id, q.asking)
  next : s'.nextId = s.nextId
  wrote : s'.wrote = s.wrote

theorem Inv.same {H : Hooks} {es es' : List Event} {s s' : St} (h : Inv H es s) (f : Same s s') (hr : received es' = received es) :
    Inv H es' s' := by
  have ht : toForward es' = toForward es := by unfold toForward; rw [hr]
  refine ⟨f.conn.trans h.conn, by rw [f.requests, hr]; exact h.requests, ?_, ?_⟩
  · rw [f.client, f.wrote, f.next, f.link, f.queued, ht]
    exact h.before
  · rw [f.client, f.wrote, f.next, f.link, f.queued, f.up, ht]
    exact h.after

theorem map_set {l : List Request} {r : Nat} {q q' : Request} (h : l[r]? = some q) (e : q'.id = q.id) (e' : q'.asking = q.asking) :
    ((l.set r q').map fun q => (q.id, q.asking)) = l.map fun q => (q.id, q.asking) := by
  rw [List.map_set]
  refine List.ext_getElem? fun i => ?_
  rw [List.getElem?_set]
  split
  · rename_i hi
    subst hi
    have hlt := (List.getElem?_eq_some_iff.mp h).1
    rw [if_pos (by simpa using hlt), List.getElem?_map, h]
    simp [e, e']
  · rfl

theorem same_drain {s : St} {r : Nat} {q : Request} (h : s.requests[r]? = some q) (l : List Nat) : Same s (drain s r q l) := by
  obtain ⟨post, b, l', e, _⟩ := drain_rest (r := r) (q := q) l s
  rw [e]
  exact ⟨rfl, rfl, rfl, rfl, rfl, rfl, map_set h rfl rfl, rfl, rfl⟩

theorem same_response (H : Hooks) (s : St) (m : Int) (op : Obj) : Same s (response H s m op) := by
  have refl : Same s s := ⟨rfl, rfl, rfl, rfl, rfl, rfl, rfl, rfl, rfl⟩
  unfold response
  split
  · split
    · exact refl
    · split
      · exact refl
      · rename_i r _ _ q hq
        simp only
        have key : ∀ (c : List Called) (l d : List Nat), Same s (if q.dseq = [] then drain { s with hooks := c } r q l
            else setRequest { s with hooks := c } r { q with dseq := d }) := by
          intro c l d
          split
          · have := same_drain (s := { s with hooks := c }) hq l
            exact ⟨this.conn, this.client, this.up, this.link, this.useTls, this.queued, this.requests, this.next, this.wrote⟩
          · exact ⟨rfl, rfl, rfl, rfl, rfl, rfl, map_set hq rfl rfl, rfl, rfl⟩
        have k := key (s.hooks ++ [⟨r, op, (H.after s.hooks.length op).state⟩]) [s.hooks.length] (q.dseq ++ [s.hooks.length])
        split
        · exact ⟨k.conn, k.client, k.up, k.link, k.useTls, k.queued, k.requests, k.next, k.wrote⟩
        · exact k
  · exact refl

theorem same_hook (s : St) (d : Nat) (x : Option (Option Obj)) : Same s (hook s d x) := by
  have refl : ∀ c, Same s { s with hooks := c } := fun c => ⟨rfl, rfl, rfl, rfl, rfl, rfl, rfl, rfl, rfl⟩
  unfold hook
  split
  · rename_i r op _
    simp only
    split
    · exact refl _
    · rename_i q hq
      split
      · have := same_drain (s := { s with hooks := s.hooks.set d ⟨r, op, fires x⟩ }) hq q.dseq
        exact ⟨this.conn, this.client, this.up, this.link, this.useTls, this.queued, this.requests, this.next, this.wrote⟩
      · exact refl _
  · exact refl _

theorem Inv.request_of {H : Hooks} {es : List Event} {s : St} (h : Inv H es s) {r : Nat} {id : PyVal} {op : Obj} {c : Controls}
    (hr : (received es)[r]? = some (id, op, c)) : ∃ p, s.requests[r]? = some p ∧ p.id = id := by
  have := congrArg (fun l => l[r]?) h.requests
  simp only [List.getElem?_map, hr, Option.map_some] at this
  cases hp : s.requests[r]? with
  | none => simp [hp] at this
  | some p =>
    simp [hp] at this
    exact ⟨p, rfl, this.1⟩

/-- The connection to the proxied server comes up. -/
theorem Inv.connect {H : Hooks} {n : Nat} {es es' : List Event} {s : St} (h : Inv H es s) (hl : s.link ≠ .settled) (hp : AllPrompt H n es)
    (hn : (toForward es).length ≤ n) (hr : received es' = received es) :
    Inv H es' (backlog H { s with link := .settled, client := true, upConnected := true }) := by
  have hcl : s.client = false := by
    cases hc : s.client with
    | false => rfl
    | true => exact absurd (h.after hc).2.2.2.2.2 hl
  obtain ⟨h1, h2, h3⟩ := h.before hcl
  replace h3 := h3 hl
  have ht : toForward es' = toForward es := by unfold toForward; rw [hr]
  have f := fwd_foldl (H := H) (n := n) s.queued { s with link := .settled, client := true, upConnected := true, queued := [] } h.conn rfl rfl
    (by
      intro q hq
      rw [h3] at hq
      obtain ⟨id, hid⟩ := forward_mem hq
      obtain ⟨p, hp1, hp2⟩ := h.request_of hid
      exact ⟨p, hp1, by rw [hp2]; exact hp q.1 id q.2.1 q.2.2 hid⟩)
    (by rw [h2]; exact Int.le_refl _) (by show s.nextId + _ ≤ _; rw [h2, h3]; omega)
  have e : backlog H { s with link := .settled, client := true, upConnected := true } =
      s.queued.foldl (fun s q => forward H s q.1 q.2.1 q.2.2)
        { s with link := .settled, client := true, upConnected := true, queued := [] } := rfl
  rw [e]
  generalize s.queued.foldl (fun s q => forward H s q.1 q.2.1 q.2.2) _ = s' at f
  refine ⟨f.conn.trans h.conn, by rw [f.requests, hr]; exact h.requests, fun hc => ?_, fun _ => ?_⟩
  · rw [f.client] at hc
    exact absurd hc (by simp)
  · refine ⟨f.up, f.queued, by rw [f.next, h2]; omega, ?_, ?_, f.link⟩
    · rw [f.next, ht]
      show s.nextId + _ ≤ _
      rw [h2, h3]
      have := List.length_filterMap_le (hooked H) (toForward es)
      omega
    · rw [f.wrote, ht, h3]
      show (s.wrote.map _) ++ _ = _
      rw [h1]
      rfl

/-- A request is forwarded or queued. -/
theorem Inv.forward {H : Hooks} {n : Nat} {es es' : List Event} {s : St} (h : Inv H es s) {id : PyVal} {op : Obj} {c : Controls} (b : Bool)
    (hp : Prompt H n id (s.requests.length, op, c)) (hn : (toForward es').length ≤ n)
    (hr : received es' = received es ++ [(id, op, c)]) (ht : toForward es' = toForward es ++ [(s.requests.length, op, c)]) :
    Inv H es' (forward H { s with requests := s.requests ++ [⟨id, [], false, false⟩], unbound := b } s.requests.length op c) := by
  have hreq : ((s.requests ++ [(⟨id, [], false, false⟩ : Request)]).map fun q => (q.id, q.asking)) = (received es').map fun x => (x.1, false) := by
    rw [hr, List.map_append, h.requests]
    simp
  by_cases hcl : s.client = true
  rotate_left
  · replace hcl : s.client = false := by simpa using hcl
    obtain ⟨h1, h2, h3⟩ := h.before hcl
    unfold ProxyBase.forward
    rw [if_neg (by simp [hcl])]
    refine ⟨h.conn, hreq, fun _ => ⟨h1, h2, fun hl => ?_⟩, fun hc => by simp [hcl] at hc⟩
    show s.queued ++ _ = _
    rw [h3 hl, ht]
  · obtain ⟨h1, h2, h3, h4, h5, h6⟩ := h.after hcl
    unfold ProxyBase.forward
    rw [if_pos hcl]
    have f := fwd_ask (H := H) (n := n) (s := { s with requests := s.requests ++ [⟨id, [], false, false⟩], unbound := b })
      (q := (s.requests.length, op, c)) (p := ⟨id, [], false, false⟩) h.conn hcl h1 (by simp) hp h3
      (by show s.nextId ≤ n; rw [ht] at hn; simp at hn; omega)
    have hlen : (hooked H (s.requests.length, op, c)).toList.length ≤ 1 := by cases hooked H (s.requests.length, op, c) <;> simp
    refine ⟨f.conn.trans h.conn, by rw [f.requests]; exact hreq, fun hc => ?_, fun _ => ?_⟩
    · rw [f.client] at hc
      exact absurd hc (by simp [hcl])
    · refine ⟨f.up.trans h1, f.queued.trans h2, by rw [f.next]; show 1 ≤ s.nextId + _; omega, ?_, ?_, f.link.trans h6⟩
      · rw [f.next, ht, List.length_append]
        show s.nextId + _ ≤ _
        simp only [List.length_cons, List.length_nil]
        omega
      · rw [f.wrote, ht, List.filterMap_append]
        show (s.wrote.map _) ++ _ = _
        rw [h5, List.filterMap_cons]
        cases hooked H (s.requests.length, op, c) <;> rfl

theorem Inv.step {H : Hooks} {n : Nat} {es : List Event} {s : St} (h : Inv H es s) (e : Event) (h1 : e ≠ .lost) (h2 : e ≠ .upLost)
    (hp : AllPrompt H n (es ++ [e])) (hn : (received (es ++ [e])).length ≤ n) : Inv H (es ++ [e]) (step H s e) := by
  have hn' := Nat.le_trans (toForward_length (es ++ [e])) hn
  have hpe : AllPrompt H n es := by
    intro r id op c hr
    refine hp r id op c ?_
    rw [received_append, List.getElem?_append_left (List.getElem?_eq_some_iff.mp hr).1]
    exact hr
  have refl : ∀ s : St, Same s s := fun s => ⟨rfl, rfl, rfl, rfl, rfl, rfl, rfl, rfl, rfl⟩
  cases e with
  | lost => exact absurd rfl h1
  | upLost => exact absurd rfl h2
  | response m op => exact h.same (same_response H s m op) (by simp [received])
  | hook d x => exact h.same (same_hook s d x) (by simp [received])
  | asked r l x =>
    have : asked s r l x = s := by
      unfold asked
      split
      · rfl
      · rename_i q hq
        have := congrArg (fun l => l[r]?) h.requests
        simp only [List.getElem?_map, hq, Option.map_some] at this
        cases hr : (received es)[r]? with
        | none => simp [hr] at this
        | some y =>
          simp [hr] at this
          rw [this.2]
          rfl
    show Inv H _ (asked s r l x)
    rw [this]
    exact h.same (refl s) (by simp [received])
  | failed =>
    show Inv H _ (if s.link = .settled then s else failed s)
    split
    · exact h.same (refl s) (by simp [received])
    · rename_i hl
      have hcl : s.client = false := by
        cases hc : s.client with
        | false => rfl
        | true => exact absurd (h.after hc).2.2.2.2.2 hl
      obtain ⟨b1, b2, _⟩ := h.before hcl
      have hrest : ∀ (l : List (Nat × Obj × Controls)) (s : St), ∃ q x, (refuseAll s l).1 = { s with queued := q, sent := x } := by
        intro l
        induction l with
        | nil => exact fun s => ⟨[], s.sent, rfl⟩
        | cons q l ih =>
          intro s
          unfold refuseAll
          split
          · obtain ⟨l1, e1, _⟩ := reply_rest s q.1 false (some (respond .bindResponse 0x41 52 .none))
            generalize reply s q.1 false (some (respond .bindResponse 0x41 52 .none)) = y at e1
            obtain ⟨s1, b⟩ := y
            simp only at e1
            cases b with
            | true => exact ⟨l, s1.sent, by simp only [e1]⟩
            | false =>
              obtain ⟨q2, x2, e2⟩ := ih s1
              refine ⟨q2, x2, ?_⟩
              show (refuseAll s1 l).1 = _
              rw [e2, e1]
          · exact ih s
      unfold failed
      obtain ⟨q, x, e1⟩ := hrest s.queued { s with link := .settled }
      generalize refuseAll { s with link := .settled } s.queued = y at e1
      obtain ⟨s1, b⟩ := y
      simp only at e1
      subst e1
      have hr : received (es ++ [Event.failed]) = received es := by simp [received]
      cases b with
      | true =>
        exact ⟨h.conn, by rw [hr]; exact h.requests, fun _ => ⟨b1, b2, fun hx => absurd rfl hx⟩, fun hx => by simp [hcl] at hx⟩
      | false =>
        exact ⟨h.conn, by rw [hr]; exact h.requests, fun _ => ⟨b1, b2, fun hx => absurd rfl hx⟩, fun hx => by simp [hcl] at hx⟩
  | up =>
    show Inv H _ (if s.link = .connecting then up H s else s)
    split
    · rename_i hl
      unfold up
      split
      · have hcl : s.client = false := by
          cases hc : s.client with
          | false => rfl
          | true => exact absurd (h.after hc).2.2.2.2.2 (by simp [hl])
        obtain ⟨b1, b2, b3⟩ := h.before hcl
        have ht : toForward (es ++ [Event.up]) = toForward es := by rw [toForward_snoc]; simp
        have hr : received (es ++ [Event.up]) = received es := by simp [received]
        exact ⟨h.conn, by rw [hr]; exact h.requests, fun _ => ⟨b1, b2, fun _ => by rw [ht]; exact b3 (by simp [hl])⟩,
          fun hx => by simp [hcl] at hx⟩
      · rw [if_pos h.conn]
        exact h.connect (by simp [hl]) hpe (by rw [toForward_snoc] at hn'; simpa using hn') (by simp [received])
    · exact h.same (refl s) (by simp [received])
  | tls =>
    show Inv H _ (if s.link = .startingTLS then tls H s else s)
    split
    · rename_i hl
      exact h.connect (by simp [hl]) hpe (by rw [toForward_snoc] at hn'; simpa using hn') (by simp [received])
    · exact h.same (refl s) (by simp [received])
  | request id op c =>
    show Inv H _ (if s.connected && isRequest op && id ≠ .int 0 then receive H s id op c else s)
    by_cases hok : (isRequest op && id ≠ .int 0) = true
    · have hlen : s.requests.length = (received es).length := by
        have := congrArg List.length h.requests
        simpa using this
      have hr : received (es ++ [.request id op c]) = received es ++ [(id, op, c)] := by
        rw [received_append]
        simp only [received, List.filterMap_cons, List.filterMap_nil]
        rw [if_pos hok]
      have hpr : Prompt H n id (s.requests.length, op, c) := by
        refine hp _ _ _ _ ?_
        rw [hr, hlen]
        simp
      rw [if_pos (by rw [h.conn, Bool.true_and]; exact hok)]
      have fwd : isStartTLS op = false → ∀ b, Inv H (es ++ [.request id op c])
          (ProxyBase.forward H { s with requests := s.requests ++ [⟨id, [], false, false⟩], unbound := b } s.requests.length op c) := by
        intro hst b
        refine h.forward b hpr hn' hr ?_
        rw [toForward_snoc]
        simp only
        rw [hok, hst, hlen]
        rfl
      have tls : isStartTLS op = true → Inv H (es ++ [.request id op c])
          (startTLS { s with requests := s.requests ++ [⟨id, [], false, false⟩] } s.requests.length) := by
        intro hst
        have ht : toForward (es ++ [.request id op c]) = toForward es := by
          rw [toForward_snoc]
          simp [hst]
        have hx : ∀ s : St, ∀ r, ∃ t l, startTLS s r = { s with tlsInitiated := t, sent := l } := by
          intro s r
          unfold startTLS
          simp only
          split
          · split
            · obtain ⟨l, e, _⟩ := reply_rest s r false (some (extRespond 1 .none .none))
              exact ⟨_, _, e⟩
            · obtain ⟨l, e, _⟩ := reply_rest s r false (some (extRespond 0 .none .none))
              generalize reply s r false (some (extRespond 0 .none .none)) = y at e
              obtain ⟨s1, b⟩ := y
              simp only at e
              subst e
              cases b with
              | true => exact ⟨s.tlsInitiated, s.sent ++ l, rfl⟩
              | false => exact ⟨true, s.sent ++ l, rfl⟩
          · obtain ⟨l, e, _⟩ := reply_rest s r false (some (extRespond 52 .none .none))
            exact ⟨_, _, e⟩
        obtain ⟨t, l, e⟩ := hx { s with requests := s.requests ++ [⟨id, [], false, false⟩] } s.requests.length
        rw [e]
        refine ⟨h.conn, ?_, ?_, ?_⟩
        · show ((s.requests ++ [(⟨id, [], false, false⟩ : Request)]).map _) = _
          rw [hr, List.map_append, List.map_append, h.requests]
          simp
        · rw [ht]; exact h.before
        · rw [ht]; exact h.after
      unfold receive
      simp only
      split
      · split
        · rename_i hname
          exact tls ((isStartTLS_iff _ _ _).mpr hname)
        · rename_i tag name value hname
          refine fwd ?_ s.unbound
          cases hs : isStartTLS (.extRequest tag name value) with
          | false => rfl
          | true => exact absurd ((isStartTLS_iff _ _ _).mp hs) hname
      · exact fwd rfl true
      · rename_i hne _
        refine fwd ?_ s.unbound
        cases op <;> first | rfl | exact absurd rfl (hne _ _ _)
    · rw [if_neg (by rw [h.conn, Bool.true_and]; exact hok)]
      refine h.same (refl s) ?_
      rw [received_append]
      simp only [received, List.filterMap_cons, List.filterMap_nil]
      rw [if_neg hok]
      simp

theorem inv_run {H : Hooks} {u o : Bool} {n : Nat} : ∀ es : List Event, Event.lost ∉ es.reverse → Event.upLost ∉ es.reverse →
    AllPrompt H n es.reverse → (received es.reverse).length ≤ n → Inv H es.reverse (run H (start u o) es.reverse)
  | [], _, _, _, _ => ⟨rfl, rfl, fun _ => ⟨rfl, rfl, fun _ => rfl⟩, fun h => by simp [run, start] at h⟩
  | e :: es, h1, h2, hp, hn => by
    rw [List.reverse_cons] at h1 h2 hp hn ⊢
    have er : run H (start u o) (es.reverse ++ [e]) = step H (run H (start u o) es.reverse) e := by simp [run]
    rw [er]
    refine (inv_run (n := n) es (fun h => h1 (List.mem_append_left _ h)) (fun h => h2 (List.mem_append_left _ h)) ?_ ?_).step e
      (fun h => h1 (by rw [h]; simp)) (fun h => h2 (by rw [h]; simp)) hp hn
    · intro r id op c hr
      refine hp r id op c ?_
      rw [received_append, List.getElem?_append_left (List.getElem?_eq_some_iff.mp hr).1]
      exact hr
    · rw [received_append] at hn
      simp at hn
      omega

/-- **Requests are forwarded in order.**  Once the connection to the proxied server is up, what has been written to it is
the requests of the client, as the hook changed them, in the order of their arrival, each exactly once; before that nothing
has been written, and as long as the connection is being set up, all requests are queued. -/
theorem fifo_partial (H : Hooks) (u o : Bool) (es : List Event) (hl : Event.lost ∉ es) (hu : Event.upLost ∉ es)
    (hp : AllPrompt H (received es).length es) :
    let s := run H (start u o) es
    (s.client = true → (s.wrote.map fun w => (w.2.1, w.2.2.1)) = (toForward es).filterMap (hooked H) ∧ s.queued = []) ∧
    (s.client = false → s.wrote = [] ∧ (s.link ≠ .settled → s.queued = toForward es)) := by
  intro s
  have h := inv_run (H := H) (u := u) (o := o) (n := (received es).length) es.reverse (by rwa [List.reverse_reverse])
    (by rwa [List.reverse_reverse]) (by rwa [List.reverse_reverse]) (by rw [List.reverse_reverse]; exact Nat.le_refl _)
  rw [List.reverse_reverse] at h
  exact ⟨fun hc => ⟨(h.after hc).2.2.2.2.1, (h.after hc).2.1⟩, fun hc => ⟨(h.before hc).1, (h.before hc).2.2⟩⟩

/-! ### The connection fails -/

/-- The answers of the proxy itself can be sent to the client under all its message ids. -/
def Answerable (es : List Event) : Prop :=
  ∀ x ∈ received es, encodes x.1 unavailable = true ∧ ∀ code : Int, code = 0 ∨ code = 1 ∨ code = 52 → encodes x.1 (tlsAnswer code) = true

/-- What the client has been sent for a request before the connection is up. -/
def early (op : Obj) (id : PyVal) (l : List (PyVal × Obj)) : Prop :=
  if isStartTLS op then ∃ code, l = [(id, tlsAnswer code)] else l = []

/-- The state while the connection is being set up. -/
structure Pre (es : List Event) (s : St) : Prop where
  conn : s.connected = true
  client : s.client = false
  up : s.upConnected = false
  hooks : s.hooks = []
  link : s.link ≠ .settled
  requests : (s.requests.map fun q => (q.id, q.asking)) = (received es).map fun x => (x.1, false)
  queued : s.queued = toForward es
  sent : ∀ r id op c, (received es)[r]? = some (id, op, c) → early op id (toClient r s.sent)
  new : ∀ r, (received es).length ≤ r → toClient r s.sent = []

theorem toClient_append (r : Nat) (a b : List Sent) : toClient r (a ++ b) = toClient r a ++ toClient r b := by simp [toClient]

theorem toClient_other {r r' : Nat} {l : List Sent} (h : ∀ m ∈ l, m.r = r') (hne : r ≠ r') : toClient r l = [] := by
  unfold toClient
  rw [List.map_eq_nil_iff, List.filter_eq_nil_iff]
  intro m hm
  simp [h m hm, Ne.symm hne]

/-- What StartTLS does. -/
theorem startTLS_spec {s : St} {r : Nat} {q : Request} (hc : s.connected = true) (hq : s.requests[r]? = some q)
    (he : ∀ code : Int, code = 0 ∨ code = 1 ∨ code = 52 → encodes q.id (tlsAnswer code) = true) :
    ∃ t code, startTLS s r = { s with tlsInitiated := t, sent := s.sent ++ [⟨r, false, q.id, tlsAnswer code⟩] } := by
  have key : ∀ code : Int, code = 0 ∨ code = 1 ∨ code = 52 → reply s r false (some (extRespond code .none .none)) =
      ({ s with sent := s.sent ++ [⟨r, false, q.id, tlsAnswer code⟩] }, false) := by
    intro code h
    unfold reply
    simp only [hq]
    have : extRespond code .none .none = tlsAnswer code := rfl
    rw [this, if_pos (by simp [hc, he code h])]
  unfold startTLS
  simp only
  split
  · split
    · rw [key 1 (by simp)]
      exact ⟨s.tlsInitiated, 1, rfl⟩
    · rw [key 0 (by simp)]
      exact ⟨true, 0, rfl⟩
  · rw [key 52 (by simp)]
    exact ⟨s.tlsInitiated, 52, rfl⟩

theorem asked_none {s : St} (h : ∀ q ∈ s.requests, q.asking = false) (r : Nat) (l : List (Option Obj)) (x : Option (Option (Obj × Controls))) :
    asked s r l x = s := by
  unfold asked
  split
  · rfl
  · rename_i q hq
    rw [h q (List.mem_of_getElem? hq)]
    rfl

theorem not_asking {es : List Event} {l : List Request} (h : (l.map fun q => (q.id, q.asking)) = (received es).map fun x => (x.1, false)) :
    ∀ q ∈ l, q.asking = false := by
  intro q hq
  have : (q.id, q.asking) ∈ l.map fun q => (q.id, q.asking) := List.mem_map_of_mem hq
  rw [h] at this
  obtain ⟨x, _, e⟩ := List.mem_map.mp this
  injection e with _ e
  exact e.symm

theorem Pre.keep {es es' : List Event} {s : St} (h : Pre es s) (hr : received es' = received es) : Pre es' s := by
  have ht : toForward es' = toForward es := by unfold toForward; rw [hr]
  exact ⟨h.conn, h.client, h.up, h.hooks, h.link, by rw [hr]; exact h.requests, by rw [ht]; exact h.queued,
    by rw [hr]; exact h.sent, by rw [hr]; exact h.new⟩

theorem receive_cases (H : Hooks) (s : St) (id : PyVal) (op : Obj) (c : Controls) :
    (isStartTLS op = true ∧ receive H s id op c = startTLS { s with requests := s.requests ++ [⟨id, [], false, false⟩] } s.requests.length) ∨
    (isStartTLS op = false ∧ ∃ b, receive H s id op c =
      forward H { s with requests := s.requests ++ [⟨id, [], false, false⟩], unbound := b } s.requests.length op c) := by
  unfold receive
  simp only
  split
  · rename_i tag name value
    split
    · rename_i hname
      exact .inl ⟨(isStartTLS_iff _ _ _).mpr hname, rfl⟩
    · rename_i hname
      refine .inr ⟨?_, s.unbound, rfl⟩
      cases hs : isStartTLS (.extRequest tag name value) with
      | false => rfl
      | true => exact absurd ((isStartTLS_iff _ _ _).mp hs) hname
  · exact .inr ⟨rfl, true, rfl⟩
  · rename_i hne _
    refine .inr ⟨?_, s.unbound, rfl⟩
    cases op <;> first | rfl | exact absurd rfl (hne _ _ _)

/-- What forwarding leaves alone, whatever the hook does. -/
def Core (s s' : St) : Prop := s'.link = s.link ∧ s'.client = s.client ∧ s'.useTls = s.useTls ∧ s'.connected = s.connected

theorem Core.trans {a b c : St} (h : Core a b) (h' : Core b c) : Core a c :=
  ⟨h'.1.trans h.1, h'.2.1.trans h.2.1, h'.2.2.1.trans h.2.2.1, h'.2.2.2.trans h.2.2.2⟩

theorem core_forwardit (s : St) (r : Nat) (x : Option (Obj × Controls)) : Core s (forwardit s r x) := by
  unfold forwardit
  repeat' split
  all_goals exact ⟨rfl, rfl, rfl, rfl⟩

theorem core_foldl (H : Hooks) : ∀ (l : List (Nat × Obj × Controls)) (s : St),
    Core s (l.foldl (fun s q => forward H s q.1 q.2.1 q.2.2) s)
  | [], _ => ⟨rfl, rfl, rfl, rfl⟩
  | q :: l, s => by
    refine Core.trans (b := forward H s q.1 q.2.1 q.2.2) ?_ (core_foldl H l _)
    unfold forward
    split
    · unfold ask
      split
      · rename_i reps x _
        obtain ⟨l', e', _⟩ := replyAll_rest q.1 reps s
        generalize replyAll s q.1 reps = y at e'
        obtain ⟨s1, b⟩ := y
        simp only at e'
        have h1 : Core s s1 := by rw [e']; exact ⟨rfl, rfl, rfl, rfl⟩
        cases b with
        | true => exact h1
        | false => exact h1.trans (core_forwardit s1 q.1 x)
      · exact ⟨rfl, rfl, rfl, rfl⟩
      · split <;> exact ⟨rfl, rfl, rfl, rfl⟩
    · exact ⟨rfl, rfl, rfl, rfl⟩

theorem foldl_link (H : Hooks) (l : List (Nat × Obj × Controls)) (s : St) :
    (l.foldl (fun s q => forward H s q.1 q.2.1 q.2.2) s).link = s.link := (core_foldl H l s).1

theorem Pre.step {H : Hooks} {es : List Event} {s : St} (h : Pre es s) {e : Event} (h1 : e ≠ .lost) (hl : (step H s e).link ≠ .settled)
    (ha : Answerable (es ++ [e])) : Pre (es ++ [e]) (step H s e) := by
  cases e with
  | lost => exact absurd rfl h1
  | upLost =>
    show Pre _ (if s.upConnected then { s with upConnected := false, onwire := [] } else s)
    rw [if_neg (by simp [h.up])]
    exact h.keep (by simp [received])
  | response m op =>
    show Pre _ (response H s m op)
    unfold response
    rw [if_neg (by simp [h.up])]
    exact h.keep (by simp [received])
  | hook d x =>
    show Pre _ (hook s d x)
    have : hook s d x = s := by
      unfold hook
      rw [h.hooks]
      rfl
    rw [this]
    exact h.keep (by simp [received])
  | asked r l x =>
    show Pre _ (asked s r l x)
    rw [asked_none (not_asking h.requests)]
    exact h.keep (by simp [received])
  | failed =>
    refine absurd ?_ hl
    show (if s.link = .settled then s else failed s).link = .settled
    rw [if_neg h.link]
    have hrest : ∀ (l : List (Nat × Obj × Controls)) (s : St), (refuseAll s l).1.link = s.link := by
      intro l
      induction l with
      | nil => exact fun s => rfl
      | cons q l ih =>
        intro s
        unfold refuseAll
        split
        · obtain ⟨l1, e1, _⟩ := reply_rest s q.1 false (some (respond .bindResponse 0x41 52 .none))
          generalize reply s q.1 false (some (respond .bindResponse 0x41 52 .none)) = y at e1
          obtain ⟨s1, b⟩ := y
          simp only at e1
          cases b with
          | true => simp only [e1]
          | false => exact (ih s1).trans (by rw [e1])
        · exact ih s
    unfold failed
    have := hrest s.queued { s with link := .settled }
    generalize refuseAll { s with link := .settled } s.queued = y at this
    obtain ⟨s1, b⟩ := y
    cases b <;> exact this
  | up =>
    by_cases hc : s.link = .connecting
    · have hstep : ProxyBase.step H s .up = ProxyBase.up H s := if_pos hc
      rw [hstep] at hl ⊢
      unfold ProxyBase.up at hl ⊢
      split
      · have hr : received (es ++ [Event.up]) = received es := by simp [received]
        have := h.keep (es' := es ++ [Event.up]) hr
        exact ⟨this.conn, this.client, this.up, this.hooks, by simp, this.requests, this.queued, this.sent, this.new⟩
      · rename_i hu
        rw [if_neg hu, if_pos h.conn] at hl
        refine absurd ?_ hl
        exact foldl_link H _ _
    · have hstep : ProxyBase.step H s .up = s := if_neg hc
      rw [hstep]
      exact h.keep (by simp [received])
  | tls =>
    by_cases hc : s.link = .startingTLS
    · have hstep : ProxyBase.step H s .tls = tls H s := if_pos hc
      rw [hstep] at hl
      exact absurd (foldl_link H _ _) hl
    · have hstep : ProxyBase.step H s .tls = s := if_neg hc
      rw [hstep]
      exact h.keep (by simp [received])
  | request id op c =>
    show Pre _ (if s.connected && isRequest op && id ≠ .int 0 then receive H s id op c else s)
    by_cases hok : (isRequest op && id ≠ .int 0) = true
    · have hlen : s.requests.length = (received es).length := by
        have := congrArg List.length h.requests
        simpa using this
      have hr : received (es ++ [.request id op c]) = received es ++ [(id, op, c)] := by
        rw [received_append]
        simp only [received, List.filterMap_cons, List.filterMap_nil]
        rw [if_pos hok]
      rw [if_pos (by rw [h.conn, Bool.true_and]; exact hok)]
      have hreq : ((s.requests ++ [(⟨id, [], false, false⟩ : Request)]).map fun q => (q.id, q.asking)) =
          (received (es ++ [.request id op c])).map fun x => (x.1, false) := by
        rw [hr, List.map_append, List.map_append, h.requests]
        simp
      have hsplit : ∀ r id' op' c', (received (es ++ [.request id op c]))[r]? = some (id', op', c') →
          (received es)[r]? = some (id', op', c') ∨ (r = (received es).length ∧ id' = id ∧ op' = op) := by
        intro r id' op' c' hx
        rw [hr] at hx
        by_cases hlt : r < (received es).length
        · rw [List.getElem?_append_left hlt] at hx
          exact .inl hx
        · rw [List.getElem?_append_right (by omega)] at hx
          have h0 : r - (received es).length = 0 := by
            have := (List.getElem?_eq_some_iff.mp hx).1
            simp at this
            omega
          rw [h0] at hx
          simp at hx
          exact .inr ⟨by omega, hx.1.symm, hx.2.1.symm⟩
      rcases receive_cases H s id op c with ⟨hst, e⟩ | ⟨hst, b, e⟩
      · have hans : ∀ code : Int, code = 0 ∨ code = 1 ∨ code = 52 → encodes id (tlsAnswer code) = true :=
          (ha (id, op, c) (by rw [hr]; simp)).2
        obtain ⟨t, code, e2⟩ := startTLS_spec (s := { s with requests := s.requests ++ [⟨id, [], false, false⟩] })
          (r := s.requests.length) (q := ⟨id, [], false, false⟩) h.conn (by simp) hans
        rw [e, e2]
        have ht : toForward (es ++ [.request id op c]) = toForward es := by
          rw [toForward_snoc]
          simp [hst]
        refine ⟨h.conn, h.client, h.up, h.hooks, h.link, hreq, by rw [ht]; exact h.queued, ?_, ?_⟩
        · intro r id' op' c' hx
          show early op' id' (toClient r (s.sent ++ _))
          rw [toClient_append]
          rcases hsplit r id' op' c' hx with hx | ⟨rfl, rfl, rfl⟩
          · have hlt := (List.getElem?_eq_some_iff.mp hx).1
            rw [toClient_other (r := r) (r' := s.requests.length) (l := [_]) (by simp) (by omega), List.append_nil]
            exact h.sent r id' op' c' hx
          · rw [h.new _ (Nat.le_refl _)]
            unfold early
            rw [if_pos hst]
            exact ⟨code, by simp [toClient, hlen]⟩
        · intro r hge
          rw [hr] at hge
          simp at hge
          show toClient r (s.sent ++ _) = []
          rw [toClient_append, h.new r (by omega), toClient_other (r' := s.requests.length) (l := [_]) (by simp) (by omega)]
          rfl
      · rw [e]
        unfold forward
        rw [if_neg (by simp [h.client])]
        have ht : toForward (es ++ [.request id op c]) = toForward es ++ [((received es).length, op, c)] := by
          rw [toForward_snoc]
          simp only
          rw [hok, hst]
          rfl
        refine ⟨h.conn, h.client, h.up, h.hooks, h.link, hreq, ?_, ?_, ?_⟩
        · show s.queued ++ _ = _
          rw [h.queued, ht, hlen]
        · intro r id' op' c' hx
          rcases hsplit r id' op' c' hx with hx | ⟨rfl, rfl, rfl⟩
          · exact h.sent r id' op' c' hx
          · unfold early
            rw [if_neg (by simp [hst])]
            exact h.new _ (Nat.le_refl _)
        · intro r hge
          rw [hr] at hge
          simp at hge
          exact h.new r (by omega)
    · rw [if_neg (by rw [h.conn, Bool.true_and]; exact hok)]
      refine h.keep ?_
      rw [received_append]
      simp only [received, List.filterMap_cons, List.filterMap_nil]
      rw [if_neg hok]
      simp

/-- What most events leave alone. -/
theorem core_step (H : Hooks) (s : St) (e : Event) (h1 : e ≠ .up) (h2 : e ≠ .tls) (h3 : e ≠ .failed) (h4 : e ≠ .lost) :
    Core s (step H s e) := by
  have refl : Core s s := ⟨rfl, rfl, rfl, rfl⟩
  cases e with
  | lost => exact absurd rfl h4
  | up => exact absurd rfl h1
  | tls => exact absurd rfl h2
  | failed => exact absurd rfl h3
  | upLost =>
    show Core s (if s.upConnected then { s with upConnected := false, onwire := [] } else s)
    split
    · exact ⟨rfl, rfl, rfl, rfl⟩
    · exact refl
  | response m op =>
    have f := same_response H s m op
    exact ⟨f.link, f.client, f.useTls, f.conn⟩
  | hook d x =>
    have f := same_hook s d x
    exact ⟨f.link, f.client, f.useTls, f.conn⟩
  | asked r l x =>
    show Core s (asked s r l x)
    unfold asked
    split
    · exact refl
    · rename_i q _
      split
      · obtain ⟨l', e, _⟩ := replyAll_rest r l (setRequest s r { q with asking := false })
        generalize replyAll (setRequest s r { q with asking := false }) r l = y at e
        obtain ⟨s1, b⟩ := y
        simp only at e
        have e2 : Core s s1 := by rw [e]; exact ⟨rfl, rfl, rfl, rfl⟩
        cases b with
        | true => exact e2
        | false =>
          cases x with
          | none => exact e2
          | some x => exact e2.trans (core_forwardit s1 r x)
      · exact refl
  | request id op c =>
    show Core s (if s.connected && isRequest op && id ≠ .int 0 then receive H s id op c else s)
    split
    · rcases receive_cases H s id op c with ⟨_, e⟩ | ⟨_, b, e⟩
      · rw [e]
        have hx : ∀ s : St, ∀ r, Core s (startTLS s r) := by
          intro s r
          unfold startTLS
          simp only
          split
          · split
            · obtain ⟨l, e, _⟩ := reply_rest s r false (some (extRespond 1 .none .none))
              rw [e]; exact ⟨rfl, rfl, rfl, rfl⟩
            · obtain ⟨l, e, _⟩ := reply_rest s r false (some (extRespond 0 .none .none))
              generalize reply s r false (some (extRespond 0 .none .none)) = y at e
              obtain ⟨s1, b⟩ := y
              simp only at e
              subst e
              cases b <;> exact ⟨rfl, rfl, rfl, rfl⟩
          · obtain ⟨l, e, _⟩ := reply_rest s r false (some (extRespond 52 .none .none))
            rw [e]; exact ⟨rfl, rfl, rfl, rfl⟩
        exact Core.trans (b := { s with requests := s.requests ++ [⟨id, [], false, false⟩] }) ⟨rfl, rfl, rfl, rfl⟩ (hx _ _)
      · rw [e]
        exact Core.trans (b := { s with requests := s.requests ++ [⟨id, [], false, false⟩], unbound := b }) ⟨rfl, rfl, rfl, rfl⟩
          (core_foldl H [(s.requests.length, op, c)] _)
    · exact refl

/-- A connection that is settled stays so. -/
theorem settled_step (H : Hooks) (s : St) (e : Event) (h : s.link = .settled) : (step H s e).link = .settled := by
  by_cases h1 : e = .up
  · subst h1
    have e : step H s .up = s := if_neg (by simp [h])
    rw [e]; exact h
  by_cases h2 : e = .tls
  · subst h2
    have e : step H s .tls = s := if_neg (by simp [h])
    rw [e]; exact h
  by_cases h3 : e = .failed
  · subst h3
    have e : step H s .failed = s := if_pos h
    rw [e]; exact h
  by_cases h4 : e = .lost
  · subst h4; exact h
  exact (core_step H s e h1 h2 h3 h4).1.trans h

/-- Without TLS, the connection is up once `clientConnector` has given it: `fifo_partial` applies. -/
theorem comes_up (H : Hooks) (o : Bool) : ∀ es : List Event, Event.lost ∉ es.reverse → Event.failed ∉ es.reverse →
    let s := run H (start false o) es.reverse
    s.connected = true ∧ s.useTls = false ∧ (Event.up ∉ es.reverse → s.link = .connecting) ∧
      (Event.up ∈ es.reverse → s.client = true ∧ s.link = .settled)
  | [], _, _ => ⟨rfl, rfl, fun _ => rfl, fun h => by simp at h⟩
  | e :: es, h1, h2 => by
    rw [List.reverse_cons] at h1 h2 ⊢
    obtain ⟨a, b, c, d⟩ := comes_up H o es (fun h => h1 (List.mem_append_left _ h)) (fun h => h2 (List.mem_append_left _ h))
    have er : run H (start false o) (es.reverse ++ [e]) = step H (run H (start false o) es.reverse) e := by simp [run]
    simp only [er]
    generalize run H (start false o) es.reverse = s at a b c d
    have hl : e ≠ .lost := fun h => h1 (by rw [h]; simp)
    have hf : e ≠ .failed := fun h => h2 (by rw [h]; simp)
    by_cases hup : e = .up
    · subst hup
      by_cases hm : Event.up ∈ es.reverse
      · obtain ⟨d1, d2⟩ := d hm
        have e : step H s .up = s := if_neg (by simp [d2])
        rw [e]
        exact ⟨a, b, fun h => absurd (by simp) h, fun _ => ⟨d1, d2⟩⟩
      · have e : step H s .up = backlog H { s with link := .settled, client := true, upConnected := true } := by
          show (if s.link = .connecting then up H s else s) = _
          rw [if_pos (c hm)]
          unfold up
          rw [if_neg (by simp [b]), if_pos a]
        have k := core_foldl H s.queued { s with link := .settled, client := true, upConnected := true, queued := [] }
        rw [e]
        exact ⟨k.2.2.2.trans a, k.2.2.1.trans b, fun h => absurd (by simp) h, fun _ => ⟨k.2.1, k.1⟩⟩
    · have hmem : Event.up ∈ es.reverse ++ [e] ↔ Event.up ∈ es.reverse := by
        rw [List.mem_append, List.mem_singleton]
        exact ⟨fun h => h.elim id fun h => absurd h.symm hup, .inl⟩
      rw [hmem]
      have k : Core s (step H s e) := by
        by_cases ht : e = .tls
        · subst ht
          have e : step H s .tls = s := by
            refine if_neg fun hx => ?_
            by_cases hm : Event.up ∈ es.reverse
            · rw [(d hm).2] at hx; simp at hx
            · rw [c hm] at hx; simp at hx
          rw [e]
          exact ⟨rfl, rfl, rfl, rfl⟩
        · exact core_step H s e hup ht hf hl
      exact ⟨k.2.2.2.trans a, k.2.2.1.trans b, fun h => k.1.trans (c h), fun h => ⟨k.2.1.trans (d h).1, k.1.trans (d h).2⟩⟩

/-- **All requests are forwarded in order**, whenever the connection comes up. -/
theorem forwarded_partial (H : Hooks) (o : Bool) (es : List Event) (hl : Event.lost ∉ es) (hu : Event.upLost ∉ es)
    (hf : Event.failed ∉ es) (hup : Event.up ∈ es) (hp : AllPrompt H (received es).length es) :
    ((run H (start false o) es).wrote.map fun w => (w.2.1, w.2.2.1)) = (toForward es).filterMap (hooked H) := by
  have h := comes_up H o es.reverse (by rwa [List.reverse_reverse]) (by rwa [List.reverse_reverse])
  rw [List.reverse_reverse] at h
  exact ((fifo_partial H false o es hl hu hp).1 (h.2.2.2 hup).1).1

theorem pre_run {H : Hooks} {u o : Bool} : ∀ es : List Event, Event.lost ∉ es.reverse → (run H (start u o) es.reverse).link ≠ .settled →
    Answerable es.reverse → Pre es.reverse (run H (start u o) es.reverse)
  | [], _, _, _ => ⟨rfl, rfl, rfl, rfl, by simp [run, start], rfl, rfl, by simp [received], fun _ _ => rfl⟩
  | e :: es, h1, hl, ha => by
    rw [List.reverse_cons] at h1 hl ha ⊢
    have er : run H (start u o) (es.reverse ++ [e]) = step H (run H (start u o) es.reverse) e := by simp [run]
    rw [er] at hl ⊢
    refine (pre_run es (fun h => h1 (List.mem_append_left _ h)) ?_ ?_).step (fun h => h1 (by rw [h]; simp)) hl ha
    · -- a link that is settled stays so
      intro hset
      refine hl ?_
      generalize run H (start u o) es.reverse = s at hset
      exact settled_step H s e hset
    · intro x hx
      exact ha x (by rw [received_append]; exact List.mem_append_left _ hx)

/-- The answers to the backlog. -/
theorem refuseAll_spec {es : List Event} : ∀ (l : List (Nat × Obj × Controls)) (s : St), s.connected = true →
    (∀ q ∈ l, ∃ p id, s.requests[q.1]? = some p ∧ p.id = id ∧ (received es)[q.1]? = some (id, q.2.1, q.2.2)) → Answerable es →
    ∃ out, refuseAll s l = ({ s with queued := [], sent := s.sent ++ out }, false) ∧
      ∀ r id op c, (received es)[r]? = some (id, op, c) →
        toClient r out = (l.filter fun q => q.1 = r && isBind op).map fun _ => (id, unavailable)
  | [], s, _, _, _ => ⟨[], by simp [refuseAll], fun _ _ _ _ _ => rfl⟩
  | q :: l, s, hc, hq, ha => by
    obtain ⟨p, id, hp, hid, hrec⟩ := hq q (List.mem_cons_self ..)
    have hq' : ∀ q' ∈ l, ∃ p id, s.requests[q'.1]? = some p ∧ p.id = id ∧ (received es)[q'.1]? = some (id, q'.2.1, q'.2.2) :=
      fun q' h => hq q' (List.mem_cons_of_mem _ h)
    unfold refuseAll
    split
    · rename_i hb
      have e : reply s q.1 false (some (respond .bindResponse 0x41 52 .none)) =
          ({ s with sent := s.sent ++ [⟨q.1, false, id, unavailable⟩] }, false) := by
        unfold reply
        simp only [hp]
        have : respond .bindResponse 0x41 52 .none = unavailable := rfl
        rw [this, hid, if_pos (by rw [hc, (ha _ (List.mem_of_getElem? hrec)).1]; rfl)]
      rw [e]
      obtain ⟨out, e2, h2⟩ := refuseAll_spec l { s with sent := s.sent ++ [⟨q.1, false, id, unavailable⟩] } hc hq' ha
      refine ⟨⟨q.1, false, id, unavailable⟩ :: out, by simp only [e2]; simp, ?_⟩
      intro r id' op' c' hr
      have h2' := h2 r id' op' c' hr
      by_cases hqr : q.1 = r
      · subst hqr
        rw [hrec] at hr
        cases hr
        have hbind : isBind q.2.1 = true := by rw [hb]; rfl
        have ec : toClient q.1 (⟨q.1, false, id, unavailable⟩ :: out) = (id, unavailable) :: toClient q.1 out := by simp [toClient]
        rw [ec, h2', List.filter_cons, if_pos (by simp [hbind])]
        rfl
      · have ec : toClient r (⟨q.1, false, id, unavailable⟩ :: out) = toClient r out := by simp [toClient, hqr]
        rw [ec, h2', List.filter_cons, if_neg (by simp [hqr])]
    · rename_i hb
      obtain ⟨out, e2, h2⟩ := refuseAll_spec l s hc hq' ha
      refine ⟨out, e2, ?_⟩
      intro r id' op' c' hr
      rw [h2 r id' op' c' hr, List.filter_cons]
      by_cases hqr : q.1 = r
      · subst hqr
        rw [hrec] at hr
        cases hr
        have hbind : isBind q.2.1 = false := by
          cases h : q.2.1 <;> first | rfl | exact absurd h (hb _ _ _ _)
        rw [if_neg (by simp [hbind])]
      · rw [if_neg (by simp [hqr])]

/-- Each request is in the backlog once, unless it is a StartTLS request. -/
theorem toForward_filter (r : Nat) (id : PyVal) (op : Obj) (c : Controls) : ∀ es : List Event,
    (received es.reverse)[r]? = some (id, op, c) →
    (toForward es.reverse).filter (fun q => q.1 = r) = if isStartTLS op then [] else [(r, op, c)]
  | [], h => by simp [received] at h
  | e :: es, h => by
    rw [List.reverse_cons] at h ⊢
    rw [toForward_snoc, List.filter_append]
    have hlt : ∀ q ∈ toForward es.reverse, q.1 < (received es.reverse).length := by
      intro q hq
      obtain ⟨_, h⟩ := forward_mem hq
      exact (List.getElem?_eq_some_iff.mp h).1
    rw [received_append] at h
    by_cases hr : r < (received es.reverse).length
    · rw [List.getElem?_append_left hr] at h
      rw [toForward_filter r id op c es h]
      have : (match e with
          | Event.request (id : PyVal) op c => if isRequest op && id ≠ PyVal.int 0 && !isStartTLS op then [((received es.reverse).length, op, c)] else []
          | _ => []).filter (fun q : Nat × Obj × Controls => q.1 = r) = [] := by
        rw [List.filter_eq_nil_iff]
        intro q hq
        have hqe : q.1 = (received es.reverse).length := by
          cases e with
          | request id' op' c' =>
            simp only at hq
            split at hq
            · rw [List.mem_singleton.mp hq]
            · simp at hq
          | _ => simp at hq
        simp
        omega
      rw [this, List.append_nil]
    · have hnil : (toForward es.reverse).filter (fun q => q.1 = r) = [] := by
        rw [List.filter_eq_nil_iff]
        intro q hq
        have := hlt q hq
        simp
        omega
      rw [hnil, List.nil_append]
      rw [List.getElem?_append_right (by omega)] at h
      cases e with
      | request id' op' c' =>
        simp only [received, List.filterMap_cons, List.filterMap_nil] at h
        by_cases hok : (isRequest op' && id' ≠ .int 0) = true
        · rw [if_pos hok] at h
          have h0 : r - (received es.reverse).length = 0 := by
            have := (List.getElem?_eq_some_iff.mp h).1
            simp [received] at this ⊢
            omega
          have hre : r = (received es.reverse).length := by omega
          simp only [received] at h0
          rw [h0] at h
          simp at h
          obtain ⟨rfl, rfl, rfl⟩ := h
          simp only
          rw [hok, hre]
          cases isStartTLS op' <;> simp
        · rw [if_neg hok] at h
          simp at h
      | _ => simp [received] at h

/-- The state after the failure. -/
structure Dead (s : St) : Prop where
  client : s.client = false
  up : s.upConnected = false
  hooks : s.hooks = []
  link : s.link = .settled
  asking : ∀ q ∈ s.requests, q.asking = false

/-- Nothing is sent for old requests any more. -/
theorem dead_step {H : Hooks} {s : St} (h : Dead s) (e : Event) : Dead (step H s e) ∧ s.requests.length ≤ (step H s e).requests.length ∧
    ∀ r, r < s.requests.length → toClient r (step H s e).sent = toClient r s.sent := by
  have same : Dead s ∧ s.requests.length ≤ s.requests.length ∧ ∀ r, r < s.requests.length → toClient r s.sent = toClient r s.sent :=
    ⟨h, Nat.le_refl _, fun _ _ => rfl⟩
  cases e with
  | lost => exact ⟨⟨rfl, h.up, h.hooks, h.link, h.asking⟩, Nat.le_refl _, fun _ _ => rfl⟩
  | upLost =>
    have e : step H s .upLost = s := if_neg (by simp [h.up])
    rw [e]; exact same
  | response m op =>
    have e : step H s (.response m op) = s := by
      show response H s m op = s
      unfold response
      rw [if_neg (by simp [h.up])]
    rw [e]; exact same
  | hook d x =>
    have e : step H s (.hook d x) = s := by
      show hook s d x = s
      unfold hook
      rw [h.hooks]
      rfl
    rw [e]; exact same
  | asked r l x =>
    have e : step H s (.asked r l x) = s := asked_none h.asking r l x
    rw [e]; exact same
  | failed =>
    have e : step H s .failed = s := if_pos h.link
    rw [e]; exact same
  | up =>
    have e : step H s .up = s := if_neg (by simp [h.link])
    rw [e]; exact same
  | tls =>
    have e : step H s .tls = s := if_neg (by simp [h.link])
    rw [e]; exact same
  | request id op c =>
    by_cases hok : (s.connected && isRequest op && id ≠ .int 0) = true
    · have e : step H s (.request id op c) = receive H s id op c := if_pos hok
      rw [e]
      have hask : ∀ q ∈ s.requests ++ [(⟨id, [], false, false⟩ : Request)], q.asking = false := by
        intro q hq
        rcases List.mem_append.mp hq with hq | hq
        · exact h.asking q hq
        · rw [List.mem_singleton.mp hq]
      rcases receive_cases H s id op c with ⟨_, e⟩ | ⟨_, b, e⟩
      · rw [e]
        have hx : ∀ s : St, ∀ r, ∃ t l, startTLS s r = { s with tlsInitiated := t, sent := s.sent ++ l } ∧ ∀ m ∈ l, m.r = r := by
          intro s r
          unfold startTLS
          simp only
          split
          · split
            · obtain ⟨l, e, hr⟩ := reply_rest s r false (some (extRespond 1 .none .none))
              exact ⟨_, l, e, hr⟩
            · obtain ⟨l, e, hr⟩ := reply_rest s r false (some (extRespond 0 .none .none))
              generalize reply s r false (some (extRespond 0 .none .none)) = y at e
              obtain ⟨s1, b⟩ := y
              simp only at e
              subst e
              cases b with
              | true => exact ⟨s.tlsInitiated, l, rfl, hr⟩
              | false => exact ⟨true, l, rfl, hr⟩
          · obtain ⟨l, e, hr⟩ := reply_rest s r false (some (extRespond 52 .none .none))
            exact ⟨_, l, e, hr⟩
        obtain ⟨t, l, e, hr⟩ := hx { s with requests := s.requests ++ [⟨id, [], false, false⟩] } s.requests.length
        rw [e]
        refine ⟨⟨h.client, h.up, h.hooks, h.link, hask⟩, by simp, fun r hlt => ?_⟩
        show toClient r (s.sent ++ l) = _
        rw [toClient_append, toClient_other hr (by omega), List.append_nil]
      · rw [e]
        unfold forward
        rw [if_neg (by simp [h.client])]
        exact ⟨⟨h.client, h.up, h.hooks, h.link, hask⟩, by simp, fun _ _ => rfl⟩
    · have e : step H s (.request id op c) = s := if_neg hok
      rw [e]; exact same

theorem dead_run {H : Hooks} : ∀ (es : List Event) {s : St}, Dead s → ∀ r, r < s.requests.length →
    toClient r (run H s es).sent = toClient r s.sent
  | [], _, _, _, _ => rfl
  | e :: es, s, h, r, hr => by
    obtain ⟨a, b, c⟩ := dead_step (H := H) h e
    exact (dead_run es a r (Nat.lt_of_lt_of_le hr b)).trans (c r hr)

/-- **The connection fails.**  If the connection to the proxied server cannot be set up, each bind request that the client
has sent gets exactly one answer, `unavailable`; each StartTLS request has got exactly one answer; no other request gets
any.  This stays so whatever happens afterwards. -/
theorem failure_answers (H : Hooks) (u o : Bool) (es es' : List Event) (hl : Event.lost ∉ es)
    (hlink : (run H (start u o) es).link ≠ .settled) (ha : Answerable es)
    (r : Nat) (id : PyVal) (op : Obj) (c : Controls) (hr : (received es)[r]? = some (id, op, c)) :
    let answers := toClient r (run H (start u o) (es ++ .failed :: es')).sent
    (isBind op = true → answers = [(id, unavailable)]) ∧
    (isStartTLS op = true → ∃ code, answers = [(id, tlsAnswer code)]) ∧
    (isBind op = false → isStartTLS op = false → answers = []) := by
  intro answers
  have h := pre_run (H := H) (u := u) (o := o) es.reverse (by rwa [List.reverse_reverse]) (by rwa [List.reverse_reverse])
    (by rwa [List.reverse_reverse])
  rw [List.reverse_reverse] at h
  have er : run H (start u o) (es ++ .failed :: es') = run H (step H (run H (start u o) es) .failed) es' := by simp [run]
  have ea : answers = toClient r (run H (step H (run H (start u o) es) .failed) es').sent := by
    show toClient r (run H (start u o) (es ++ .failed :: es')).sent = _
    rw [er]
  rw [ea]
  generalize run H (start u o) es = s at h hlink
  have hlen : s.requests.length = (received es).length := by
    have := congrArg List.length h.requests
    simpa using this
  obtain ⟨out, e, ho⟩ := refuseAll_spec (es := es) s.queued { s with link := .settled } h.conn (by
      intro q hq
      rw [h.queued] at hq
      obtain ⟨id, hid⟩ := forward_mem hq
      have := congrArg (fun l => l[q.1]?) h.requests
      simp only [List.getElem?_map, hid, Option.map_some] at this
      cases hp : s.requests[q.1]? with
      | none => simp [hp] at this
      | some p =>
        simp [hp] at this
        exact ⟨p, id, rfl, this.1, hid⟩) ha
  have es1 : step H s .failed = { s with link := .settled, queued := [], sent := s.sent ++ out, closing := true } := by
    show (if s.link = .settled then s else failed s) = _
    rw [if_neg h.link]
    unfold failed
    rw [e]
  rw [es1]
  have hlt := (List.getElem?_eq_some_iff.mp hr).1
  rw [dead_run es' (s := { s with link := .settled, queued := [], sent := s.sent ++ out, closing := true })
    ⟨h.client, h.up, h.hooks, rfl, not_asking h.requests⟩ r (by show r < s.requests.length; omega)]
  show (isBind op = true → toClient r (s.sent ++ out) = _) ∧ (isStartTLS op = true → ∃ code, toClient r (s.sent ++ out) = _) ∧
    (isBind op = false → isStartTLS op = false → toClient r (s.sent ++ out) = [])
  have hs := h.sent r id op c hr
  have hf := toForward_filter r id op c es.reverse (by rw [List.reverse_reverse]; exact hr)
  rw [List.reverse_reverse] at hf
  have hbs : isBind op = true → isStartTLS op = false := by
    intro hb
    cases op <;> simp_all [isBind, isStartTLS]
  rw [toClient_append, ho r id op c hr, h.queued]
  unfold early at hs
  refine ⟨?_, ?_, ?_⟩
  · intro hb
    rw [if_neg (by simp [hbs hb])] at hs hf
    rw [hs, hb]
    simp only [Bool.and_true]
    rw [hf]
    rfl
  · intro ht
    rw [if_pos ht] at hs hf
    obtain ⟨code, hs⟩ := hs
    have hb : isBind op = false := by
      cases hb : isBind op with
      | false => rfl
      | true => rw [hbs hb] at ht; simp at ht
    rw [hs, hb]
    exact ⟨code, by simp⟩
  · intro hb ht
    rw [if_neg (by simp [ht])] at hs
    rw [hs, hb]
    simp

/-! ### Examples and violations -/

def bind : Obj := .bind 0x40 (.int 3) (.bytes []) (.simple (.bytes []))
def delete (b : UInt8) : Obj := .oct .delRequest 0x4A [b]
def tlsRequest : Obj := .extRequest 0x57 (.bytes [49, 46, 51, 46, 54, 46, 49, 46, 52, 46, 49, 46, 49, 52, 54, 54, 46, 50, 48, 48, 51, 55]) .none

/-- Hooks that change nothing. -/
def plain : Hooks := ⟨fun _ op c => .now [] (some (op, c)), fun _ op => .now (some op)⟩

/-- Requests before and after the connection is up. -/
def mixed : List Event :=
  [.request (.int 1) (delete 1) none, .request (.int 2) tlsRequest none, .request (.int 3) (delete 2) none, .up,
    .request (.int 4) (delete 3) none]

theorem mixed_received : received mixed = [(.int 1, delete 1, none), (.int 2, tlsRequest, none), (.int 3, delete 2, none), (.int 4, delete 3, none)] := by
  simp [received, mixed, isRequest, delete, tlsRequest]

theorem mixed_forward : toForward mixed = [(0, delete 1, none), (2, delete 2, none), (3, delete 3, none)] := by
  simp [toForward, mixed_received, List.zipIdx_cons, isStartTLS, delete, tlsRequest]

theorem delete_encodes (b : UInt8) (m : Int) (h : 0 ≤ m ∧ m < 2 ^ 31) : encodes (.int m) (delete b) = true :=
  encodes_op m (.delete [b]) h (by simp [Spec.Op.size, Spec.octSize, Spec.elementSize])

theorem tls_encodes (m : Int) (h : 0 ≤ m ∧ m < 2 ^ 31) : encodes (.int m) tlsRequest = true :=
  encodes_op m (.extRequest [49, 46, 51, 46, 54, 46, 49, 46, 52, 46, 49, 46, 49, 52, 54, 54, 46, 50, 48, 48, 51, 55] none) h (by decide)

/-- The hypotheses of `forwarded_partial` can be met. -/
example : AllPrompt plain (received mixed).length mixed := by
  intro r id op c h
  rw [mixed_received] at h ⊢
  have hm := List.mem_of_getElem? h
  refine ⟨[], some (op, c), rfl, by simp, ?_⟩
  rintro op' c' ⟨⟩
  simp only [List.mem_cons, List.not_mem_nil, or_false, Prod.mk.injEq] at hm
  refine ⟨?_, fun m h1 h2 => ?_⟩
  · rcases hm with ⟨_, rfl, _⟩ | ⟨_, rfl, _⟩ | ⟨_, rfl, _⟩ | ⟨_, rfl, _⟩ <;> simp [delete, tlsRequest, needsAnswer]
  · have hr : 0 ≤ m ∧ m < 2 ^ 31 := by simp at h2; omega
    rcases hm with ⟨_, rfl, _⟩ | ⟨_, rfl, _⟩ | ⟨_, rfl, _⟩ | ⟨_, rfl, _⟩
    · exact delete_encodes 1 m hr
    · exact tls_encodes m hr
    · exact delete_encodes 2 m hr
    · exact delete_encodes 3 m hr

example : Event.lost ∉ mixed ∧ Event.upLost ∉ mixed ∧ Event.failed ∉ mixed ∧ Event.up ∈ mixed := by simp [mixed]

example : (toForward mixed).filterMap (hooked plain) = [(0, delete 1), (2, delete 2), (3, delete 3)] := by
  simp [mixed_forward, hooked, plain]

/-- A bind, a StartTLS request and a deletion. -/
def waiting : List Event := [.request (.int 1) bind none, .request (.int 2) tlsRequest none, .request (.int 3) (delete 1) none]

theorem unavailable_encodes (m : Int) (h : 0 ≤ m ∧ m < 2 ^ 31) : encodes (.int m) unavailable = true :=
  encodes_op m (.bindResponse 52 [] [] none) h (by decide)
theorem tlsAnswer_encodes (m : Int) (h : 0 ≤ m ∧ m < 2 ^ 31) (code : Int) (hc : code = 0 ∨ code = 1 ∨ code = 52) :
    encodes (.int m) (tlsAnswer code) = true := by
  rcases hc with rfl | rfl | rfl <;> exact encodes_op m (.extResponse _ [] [] none none) h (by decide)

theorem waiting_received : received waiting = [(.int 1, bind, none), (.int 2, tlsRequest, none), (.int 3, delete 1, none)] := by
  simp [received, waiting, isRequest, delete, tlsRequest, bind]

/-- The hypotheses of `failure_answers` can be met. -/
example : Answerable waiting ∧ (received waiting)[0]? = some (.int 1, bind, none) ∧ (run plain (start false false) waiting).link ≠ .settled := by
  refine ⟨?_, by rw [waiting_received]; rfl, ?_⟩
  · intro x hx
    rw [waiting_received] at hx
    simp only [List.mem_cons, List.not_mem_nil, or_false] at hx
    rcases hx with rfl | rfl | rfl <;>
      exact ⟨unavailable_encodes _ (by decide), fun code hc => tlsAnswer_encodes _ (by decide) code hc⟩
  · have k : Core (start false false) (run plain (start false false) waiting) :=
      ((core_step plain _ (.request (.int 1) bind none) (by simp) (by simp) (by simp) (by simp)).trans
        (core_step plain _ (.request (.int 2) tlsRequest none) (by simp) (by simp) (by simp) (by simp))).trans
        (core_step plain _ (.request (.int 3) (delete 1) none) (by simp) (by simp) (by simp) (by simp))
    rw [k.1]
    simp [start]

/-- A hook that takes its time for the first request. -/
def lazy : Hooks := ⟨fun r op c => if r = 0 then .later else .now [] (some (op, c)), fun _ op => .now (some op)⟩

/-- **With a hook that takes its time a later request overtakes an earlier one**, though both were in the backlog. -/
theorem hook_reorders :
    ((run lazy (start false false) [.request (.int 1) (delete 1) none, .request (.int 2) (delete 2) none, .up,
      .asked 0 [] (some (some (delete 1, none)))]).wrote.map fun w => (w.2.1, w.2.2.1)) = [(1, delete 2), (0, delete 1)] := by
  have h1 := delete_encodes 2 1 (by decide)
  have h2 := delete_encodes 1 2 (by decide)
  unfold delete at h1 h2
  simp [run, step, start, receive, forward, up, backlog, ask, lazy, replyAll, forwardit, asked, setRequest, needsAnswer, isRequest,
    delete, h1, h2]

/-- **A bind that arrives after the failure, while the connection to the client is still there, is never answered.** -/
theorem late_bind_unanswered (H : Hooks) (es : List Event) :
    toClient 0 (run H (start false false) ([.failed, .request (.int 1) bind none] ++ es)).sent = [] := by
  have e1 : step H (step H (start false false) .failed) (.request (.int 1) bind none) =
      { start false false with link := .settled, closing := true, requests := [⟨.int 1, [], false, false⟩], queued := [(0, bind, none)] } := by
    simp [step, start, failed, refuseAll, receive, bind, isRequest, forward]
  have e2 : run H (start false false) ([.failed, .request (.int 1) bind none] ++ es) =
      run H (step H (step H (start false false) .failed) (.request (.int 1) bind none)) es := by simp [run]
  rw [e2, e1, dead_run es ⟨rfl, rfl, rfl, rfl, by simp⟩ 0 (by simp)]
  rfl

end Verif.C46
