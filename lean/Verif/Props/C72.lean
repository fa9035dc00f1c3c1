import Verif.Props.C46
/-
C72: the proxy base class answers each StartTLS request itself, exactly once, and says yes at most once.

Without TLS options of the factory every answer is `unavailable` (52).  With options the first StartTLS request is
answered with success (0) and TLS is started; all later ones with `operationsError` (1), whatever the hooks, the proxied
server and the other requests do in between (`answered`).
-/
namespace Verif.C72
open Verif.Ldap Verif.Server Verif.ProxyBase Verif.Spec.ProxyBase
open Verif.Client (Controls isResponse needsAnswer)
open Verif.C46 (toClient_append toClient_other receive_cases Answerable)

/-- Everything in flight belongs to requests with the property `P`. -/
structure Refs (P : Nat → Prop) (s : St) : Prop where
  queued : ∀ q ∈ s.queued, P q.1
  onwire : ∀ m r, (m, r) ∈ s.onwire → P r
  hooks : ∀ c ∈ s.hooks, P c.r
  asking : ∀ (r : Nat) (q : Request), s.requests[r]? = some q → q.asking = true → P r

/-- Only such requests got answers. -/
structure Ext (P : Nat → Prop) (s s' : St) : Prop where
  sent : ∃ l, s'.sent = s.sent ++ l ∧ ∀ m ∈ l, P m.r
  options : s'.options = s.options
  init : s'.tlsInitiated = s.tlsInitiated
  conn : s'.connected = s.connected
  ids : s'.requests.map (·.id) = s.requests.map (·.id)

theorem Ext.refl (P : Nat → Prop) (s : St) : Ext P s s := ⟨⟨[], by simp, by simp⟩, rfl, rfl, rfl, rfl⟩

theorem Ext.trans {P : Nat → Prop} {a b c : St} (h : Ext P a b) (h' : Ext P b c) : Ext P a c := by
  obtain ⟨l, e, p⟩ := h.sent
  obtain ⟨l', e', p'⟩ := h'.sent
  exact ⟨⟨l ++ l', by rw [e', e, List.append_assoc], fun m hm => (List.mem_append.mp hm).elim (p m) (p' m)⟩,
    h'.options.trans h.options, h'.init.trans h.init, h'.conn.trans h.conn, h'.ids.trans h.ids⟩

/-- The two together. -/
def Ok (P : Nat → Prop) (s s' : St) : Prop := Refs P s' ∧ Ext P s s'

theorem set_ids {l : List Request} {r : Nat} {q q' : Request} (h : l[r]? = some q) (e : q'.id = q.id) :
    (l.set r q').map (·.id) = l.map (·.id) := by
  rw [List.map_set, e]
  refine List.ext_getElem? fun i => ?_
  rw [List.getElem?_set]
  split
  · rename_i hi
    subst hi
    split
    · rw [List.getElem?_map, h]; rfl
    · rename_i hlt
      rw [List.getElem?_eq_none (by omega)]
  · rfl

theorem set_asking {P : Nat → Prop} {l : List Request} {r : Nat} {q' : Request}
    (h : ∀ (r : Nat) (q : Request), l[r]? = some q → q.asking = true → P r) (hq : q'.asking = true → P r) :
    ∀ (i : Nat) (q : Request), (l.set r q')[i]? = some q → q.asking = true → P i := by
  intro i q hi ha
  rw [List.getElem?_set] at hi
  split at hi
  · rename_i e
    subst e
    split at hi
    · injection hi with hi
      subst hi
      exact hq ha
    · cases hi
  · exact h i q hi ha

theorem ok_sent {P : Nat → Prop} {s s' : St} {l : List Sent} (h : Refs P s) (e : s' = { s with sent := s.sent ++ l }) {r : Nat}
    (hl : ∀ m ∈ l, m.r = r) (hr : P r) : Ok P s s' := by
  subst e
  exact ⟨⟨h.queued, h.onwire, h.hooks, h.asking⟩, ⟨⟨l, rfl, fun m hm => by rw [hl m hm]; exact hr⟩, rfl, rfl, rfl, rfl⟩⟩

theorem ok_forwardit {P : Nat → Prop} {s : St} (h : Refs P s) {r : Nat} (hr : P r) (x : Option (Obj × Controls)) : Ok P s (forwardit s r x) := by
  unfold forwardit
  split
  · exact ⟨h, .refl _ _⟩
  · split
    · split
      · exact ⟨h, .refl _ _⟩
      · rename_i answer _
        simp only
        have hw : ∀ m r', (m, r') ∈ (if answer = true then s.onwire ++ [(s.nextId, r)] else s.onwire) → P r' := by
          intro m r' hm
          split at hm
          · rcases List.mem_append.mp hm with hm | hm
            · exact h.onwire m r' hm
            · rw [List.mem_singleton] at hm
              cases hm
              exact hr
          · exact h.onwire m r' hm
        split
        all_goals exact ⟨⟨h.queued, hw, h.hooks, h.asking⟩, ⟨⟨[], by simp, by simp⟩, rfl, rfl, rfl, rfl⟩⟩
    · exact ⟨h, .refl _ _⟩

theorem ok_setAsking {P : Nat → Prop} {s : St} (h : Refs P s) {r : Nat} {q : Request} (hq : s.requests[r]? = some q) (hr : P r) (b : Bool) :
    Ok P s (setRequest s r { q with asking := b }) :=
  ⟨⟨h.queued, h.onwire, h.hooks, set_asking h.asking fun _ => hr⟩, ⟨⟨[], by simp [setRequest], by simp⟩, rfl, rfl, rfl, set_ids hq rfl⟩⟩

theorem ok_replyAll {P : Nat → Prop} {s : St} (h : Refs P s) {r : Nat} (hr : P r) (l : List (Option Obj)) : Ok P s (replyAll s r l).1 := by
  obtain ⟨l', e, hl⟩ := replyAll_rest r l s
  exact ok_sent h e hl hr

theorem ok_ask {P : Nat → Prop} {H : Hooks} {s : St} (h : Refs P s) {r : Nat} (hr : P r) (op : Obj) (c : Controls) : Ok P s (ask H s r op c) := by
  unfold ask
  split
  · rename_i l x _
    have k := ok_replyAll h hr l
    cases he : replyAll s r l with
    | mk s' b =>
      rw [he] at k
      cases b with
      | true => exact k
      | false =>
        have k' := ok_forwardit k.1 hr x
        exact ⟨k'.1, k.2.trans k'.2⟩
  · exact ⟨h, .refl _ _⟩
  · split
    · exact ⟨h, .refl _ _⟩
    · rename_i q hq
      exact ok_setAsking h hq hr true

theorem ok_forward {P : Nat → Prop} {H : Hooks} {s : St} (h : Refs P s) {r : Nat} (hr : P r) (op : Obj) (c : Controls) :
    Ok P s (forward H s r op c) := by
  unfold forward
  split
  · exact ok_ask h hr op c
  · refine ⟨⟨fun q hq => ?_, h.onwire, h.hooks, h.asking⟩, ⟨⟨[], by simp, by simp⟩, rfl, rfl, rfl, rfl⟩⟩
    rcases List.mem_append.mp hq with hq | hq
    · exact h.queued q hq
    · rw [List.mem_singleton.mp hq]; exact hr

theorem ok_foldl {P : Nat → Prop} {H : Hooks} : ∀ (l : List (Nat × Obj × Controls)) {s : St}, Refs P s → (∀ q ∈ l, P q.1) →
    Ok P s (l.foldl (fun s q => forward H s q.1 q.2.1 q.2.2) s)
  | [], s, h, _ => ⟨h, .refl _ _⟩
  | q :: l, s, h, hl => by
    have k := ok_forward (H := H) h (hl q (by simp)) q.2.1 q.2.2
    have k' := ok_foldl (H := H) l k.1 fun x hx => hl x (by simp [hx])
    exact ⟨k'.1, k.2.trans k'.2⟩

theorem ok_refuseAll {P : Nat → Prop} : ∀ (l : List (Nat × Obj × Controls)) {s : St}, Refs P s → (∀ q ∈ l, P q.1) → Ok P s (refuseAll s l).1
  | [], s, h, _ => ⟨⟨by simp [refuseAll], h.onwire, h.hooks, h.asking⟩, ⟨⟨[], by simp [refuseAll], by simp⟩, rfl, rfl, rfl, rfl⟩⟩
  | q :: l, s, h, hl => by
    have hl' : ∀ q' ∈ l, P q'.1 := fun x hx => hl x (by simp [hx])
    rw [refuseAll.eq_def]
    simp only
    split
    · obtain ⟨l1, e, h1⟩ := reply_rest s q.1 false (some (respond .bindResponse 0x41 52 .none))
      have k := ok_sent h e h1 (hl q (by simp))
      cases hr : reply s q.1 false (some (respond .bindResponse 0x41 52 .none)) with
      | mk s' b =>
        rw [hr] at k
        cases b with
        | true => exact ⟨⟨hl', k.1.onwire, k.1.hooks, k.1.asking⟩, ⟨k.2.sent, k.2.options, k.2.init, k.2.conn, k.2.ids⟩⟩
        | false =>
          have k' := ok_refuseAll l k.1 hl'
          exact ⟨k'.1, k.2.trans k'.2⟩
    · exact ok_refuseAll l h hl'

theorem ok_drain {P : Nat → Prop} {s : St} (h : Refs P s) {r : Nat} {q : Request} (hq : s.requests[r]? = some q) (hr : P r) (l : List Nat) :
    Ok P s (drain s r q l) := by
  obtain ⟨post, b, l', e, hl⟩ := drain_rest (r := r) (q := q) l s
  rw [e]
  exact ⟨⟨h.queued, h.onwire, h.hooks, set_asking h.asking fun _ => hr⟩,
    ⟨⟨l', rfl, fun m hm => by rw [hl m hm]; exact hr⟩, rfl, rfl, rfl, set_ids hq rfl⟩⟩

theorem ok_response {P : Nat → Prop} {H : Hooks} {s : St} (h : Refs P s) (m : Int) (op : Obj) : Ok P s (response H s m op) := by
  unfold response
  split
  · split
    · exact ⟨h, .refl _ _⟩
    · rename_i r hlk
      have hr : P r := by
        refine h.onwire m r ?_
        revert hlk
        generalize s.onwire = l
        induction l with
        | nil => simp
        | cons x l ih =>
          obtain ⟨a, b⟩ := x
          simp only [List.lookup_cons]
          split
          · rename_i hab
            intro e
            have : m = a := by simpa using hab
            simp_all
          · intro e
            simp [ih e]
      split
      · exact ⟨h, .refl _ _⟩
      · rename_i q hq
        simp only
        have h0 : Ok P s { s with hooks := s.hooks ++ [⟨r, op, (H.after s.hooks.length op).state⟩] } := by
          refine ⟨⟨h.queued, h.onwire, fun c hc => ?_, h.asking⟩, ⟨⟨[], by simp, by simp⟩, rfl, rfl, rfl, rfl⟩⟩
          rcases List.mem_append.mp hc with hc | hc
          · exact h.hooks c hc
          · rw [List.mem_singleton.mp hc]; exact hr
        have k : Ok P s (if q.dseq = [] then drain { s with hooks := s.hooks ++ [⟨r, op, (H.after s.hooks.length op).state⟩] } r q [s.hooks.length]
            else setRequest { s with hooks := s.hooks ++ [⟨r, op, (H.after s.hooks.length op).state⟩] } r { q with dseq := q.dseq ++ [s.hooks.length] }) := by
          split
          · have k' := ok_drain h0.1 (r := r) (q := q) hq hr [s.hooks.length]
            exact ⟨k'.1, h0.2.trans k'.2⟩
          · exact ⟨⟨h0.1.queued, h0.1.onwire, h0.1.hooks, set_asking h0.1.asking fun _ => hr⟩, h0.2.trans ⟨⟨[], by simp [setRequest], by simp⟩, rfl, rfl, rfl, set_ids hq rfl⟩⟩
        split
        · exact ⟨⟨k.1.queued, fun m' r' hm => k.1.onwire m' r' (List.mem_filter.mp hm).1, k.1.hooks, k.1.asking⟩,
            ⟨k.2.sent, k.2.options, k.2.init, k.2.conn, k.2.ids⟩⟩
        · exact k
  · exact ⟨h, .refl _ _⟩

theorem ok_hook {P : Nat → Prop} {s : St} (h : Refs P s) (d : Nat) (x : Option (Option Obj)) : Ok P s (hook s d x) := by
  unfold hook
  split
  · rename_i r op hd
    have hr : P r := h.hooks _ (List.mem_of_getElem? hd)
    have h0 : Ok P s { s with hooks := s.hooks.set d ⟨r, op, fires x⟩ } := by
      refine ⟨⟨h.queued, h.onwire, fun c hc => ?_, h.asking⟩, ⟨⟨[], by simp, by simp⟩, rfl, rfl, rfl, rfl⟩⟩
      rcases List.mem_or_eq_of_mem_set hc with hc | hc
      · exact h.hooks c hc
      · rw [hc]; exact hr
    simp only
    split
    · exact h0
    · rename_i q hq
      split
      · have k' := ok_drain h0.1 (r := r) (q := q) hq hr q.dseq
        exact ⟨k'.1, h0.2.trans k'.2⟩
      · exact h0
  · exact ⟨h, .refl _ _⟩

theorem ok_asked {P : Nat → Prop} {s : St} (h : Refs P s) (r : Nat) (l : List (Option Obj)) (x : Option (Option (Obj × Controls))) :
    Ok P s (asked s r l x) := by
  unfold asked
  split
  · exact ⟨h, .refl _ _⟩
  · rename_i q hq
    split
    · rename_i ha
      have hr := h.asking r q hq ha
      have k0 := ok_setAsking h hq hr false
      have k1 := ok_replyAll k0.1 hr l
      have k : Ok P s (replyAll (setRequest s r { q with asking := false }) r l).1 := ⟨k1.1, k0.2.trans k1.2⟩
      cases he : replyAll (setRequest s r { q with asking := false }) r l with
      | mk s' b =>
        rw [he] at k
        cases b with
        | true => exact k
        | false =>
          cases x with
          | none => exact k
          | some x =>
            have k' := ok_forwardit k.1 hr x
            exact ⟨k'.1, k.2.trans k'.2⟩
    · exact ⟨h, .refl _ _⟩

/-- Every event but the loss of the client and a request. -/
theorem ok_step {P : Nat → Prop} {H : Hooks} {s : St} (h : Refs P s) (e : Event) (h1 : e ≠ .lost) (h2 : ∀ id op c, e ≠ .request id op c) :
    Ok P s (step H s e) := by
  have bl : Ok P s (backlog H { s with link := .settled, client := true, upConnected := true }) := by
    have k := ok_foldl (H := H) s.queued (s := { s with link := .settled, client := true, upConnected := true, queued := [] })
      ⟨by simp, h.onwire, h.hooks, h.asking⟩ h.queued
    exact ⟨k.1, ⟨k.2.sent, k.2.options, k.2.init, k.2.conn, k.2.ids⟩⟩
  cases e with
  | lost => exact absurd rfl h1
  | request id op c => exact absurd rfl (h2 id op c)
  | up =>
    show Ok P s (if _ then _ else _)
    split
    · unfold up
      split
      · exact ⟨⟨h.queued, h.onwire, h.hooks, h.asking⟩, ⟨⟨[], by simp, by simp⟩, rfl, rfl, rfl, rfl⟩⟩
      · split
        · exact bl
        · exact ⟨⟨by simp, h.onwire, h.hooks, h.asking⟩, ⟨⟨[], by simp, by simp⟩, rfl, rfl, rfl, rfl⟩⟩
    · exact ⟨h, .refl _ _⟩
  | tls =>
    show Ok P s (if _ then _ else _)
    split
    · exact bl
    · exact ⟨h, .refl _ _⟩
  | failed =>
    show Ok P s (if _ then _ else _)
    split
    · exact ⟨h, .refl _ _⟩
    · have k := ok_refuseAll s.queued (s := { s with link := .settled }) ⟨h.queued, h.onwire, h.hooks, h.asking⟩ h.queued
      unfold failed
      cases hr : refuseAll { s with link := .settled } s.queued with
      | mk s' b =>
        rw [hr] at k
        have k' : Ok P s s' := ⟨k.1, ⟨k.2.sent, k.2.options, k.2.init, k.2.conn, k.2.ids⟩⟩
        cases b with
        | true => exact k'
        | false => exact ⟨⟨k'.1.queued, k'.1.onwire, k'.1.hooks, k'.1.asking⟩, ⟨k'.2.sent, k'.2.options, k'.2.init, k'.2.conn, k'.2.ids⟩⟩
  | upLost =>
    show Ok P s (if _ then _ else _)
    split
    · exact ⟨⟨h.queued, by simp, h.hooks, h.asking⟩, ⟨⟨[], by simp, by simp⟩, rfl, rfl, rfl, rfl⟩⟩
    · exact ⟨h, .refl _ _⟩
  | asked r l x => exact ok_asked h r l x
  | response m op => exact ok_response h m op
  | hook d x => exact ok_hook h d x

/-! ### The answers -/

/-- The number of StartTLS requests in a list. -/
def tlsCount (l : List (PyVal × Obj × Controls)) : Nat := (l.filter fun x => isStartTLS x.2.1).length

/-- The code of the answer to a StartTLS request, by the number of those before it. -/
def codeFor (options : Bool) (before : Nat) : Int := if options then if before = 0 then 0 else 1 else 52

/-- The request is there and is not a StartTLS request. -/
def Other (es : List Event) (r : Nat) : Prop := ∃ x, (received es)[r]? = some x ∧ isStartTLS x.2.1 = false

structure Inv (o : Bool) (es : List Event) (s : St) : Prop where
  refs : Refs (Other es) s
  conn : s.connected = true
  options : s.options = o
  init : s.tlsInitiated = (o && decide (tlsCount (received es) ≠ 0))
  ids : s.requests.map (·.id) = (received es).map (·.1)
  below : ∀ m ∈ s.sent, m.r < (received es).length
  answers : ∀ (r : Nat) (id : PyVal) (op : Obj) (c : Controls), (received es)[r]? = some (id, op, c) → isStartTLS op = true →
    toClient r s.sent = [(id, tlsAnswer (codeFor o (tlsCount ((received es).take r))))]

theorem Other.mono {es : List Event} {e : Event} {r : Nat} (h : Other es r) : Other (es ++ [e]) r := by
  obtain ⟨x, h1, h2⟩ := h
  refine ⟨x, ?_, h2⟩
  rw [C46.received_append, List.getElem?_append_left (List.getElem?_eq_some_iff.mp h1).1]
  exact h1

theorem Refs.mono {P Q : Nat → Prop} {s : St} (h : Refs P s) (hpq : ∀ r, P r → Q r) : Refs Q s :=
  ⟨fun q hq => hpq _ (h.queued q hq), fun m r hm => hpq _ (h.onwire m r hm), fun c hc => hpq _ (h.hooks c hc), fun r q hq ha => hpq _ (h.asking r q hq ha)⟩

/-- What StartTLS does. -/
theorem startTLS_exact {s : St} {r : Nat} {q : Request} (hc : s.connected = true) (hq : s.requests[r]? = some q)
    (he : ∀ code : Int, code = 0 ∨ code = 1 ∨ code = 52 → encodes q.id (tlsAnswer code) = true) :
    startTLS s r = { s with
      tlsInitiated := s.tlsInitiated || s.options
      sent := s.sent ++ [⟨r, false, q.id, tlsAnswer (if s.options then if s.tlsInitiated then 1 else 0 else 52)⟩] } := by
  have key : ∀ code : Int, code = 0 ∨ code = 1 ∨ code = 52 → reply s r false (some (extRespond code .none .none)) =
      ({ s with sent := s.sent ++ [⟨r, false, q.id, tlsAnswer code⟩] }, false) := by
    intro code h
    unfold reply
    simp only [hq]
    have : extRespond code .none .none = tlsAnswer code := rfl
    rw [this, if_pos (by simp [hc, he code h])]
  unfold startTLS
  simp only
  by_cases ho : s.options = true
  · by_cases ht : s.tlsInitiated = true
    · rw [if_pos ho, if_pos ht, key 1 (by simp)]
      simp [ho, ht]
    · rw [if_pos ho, if_neg ht, key 0 (by simp)]
      simp [ho, ht]
  · rw [if_neg ho, key 52 (by simp)]
    simp [ho]

theorem Inv.step {H : Hooks} {o : Bool} {es : List Event} {s : St} (h : Inv o es s) (e : Event) (h1 : e ≠ .lost) (ha : Answerable (es ++ [e])) :
    Inv o (es ++ [e]) (step H s e) := by
  by_cases hq : ∃ id op c, e = .request id op c
  · obtain ⟨id, op, c, rfl⟩ := hq
    show Inv o _ (if _ then _ else _)
    split
    · rename_i hc
      have hc : (s.connected = true ∧ isRequest op = true) ∧ id ≠ .int 0 := by simpa using hc
      have hr : received (es ++ [.request id op c]) = received es ++ [(id, op, c)] := by
        rw [C46.received_append]; simp [received, hc.1.2, hc.2]
      have hlen : s.requests.length = (received es).length := by
        have := congrArg List.length h.ids
        simpa using this
      have refs' : ∀ b, Refs (Other (es ++ [.request id op c])) { s with requests := s.requests ++ [⟨id, [], false, false⟩], unbound := b } := by
        intro b
        have h0 := h.refs.mono (Q := Other (es ++ [.request id op c])) fun _ hx => hx.mono
        refine ⟨h0.queued, h0.onwire, h0.hooks, fun r q hq hasking => ?_⟩
        by_cases hlt : r < s.requests.length
        · rw [List.getElem?_append_left hlt] at hq
          exact h0.asking r q hq hasking
        · rw [List.getElem?_append_right (by omega)] at hq
          cases hk : r - s.requests.length with
          | zero =>
            rw [hk] at hq
            simp only [List.getElem?_cons_zero, Option.some.injEq] at hq
            subst hq
            cases hasking
          | succ k =>
            rw [hk] at hq
            simp at hq
      rcases receive_cases H s id op c with ⟨ht, e⟩ | ⟨ht, b, e⟩
      · have enc : ∀ code : Int, code = 0 ∨ code = 1 ∨ code = 52 → encodes id (tlsAnswer code) = true :=
          (ha (id, op, c) (by rw [hr]; simp)).2
        have e2 := startTLS_exact (s := { s with requests := s.requests ++ [⟨id, [], false, false⟩] }) (r := s.requests.length)
          (q := ⟨id, [], false, false⟩) h.conn (by simp) enc
        rw [e, e2]
        have r0 := refs' s.unbound
        have hcnt : tlsCount (received es ++ [(id, op, c)]) = tlsCount (received es) + 1 := by
          simp [tlsCount, ht]
        have hcode : (if s.options then if s.tlsInitiated then (1 : Int) else 0 else 52) = codeFor o (tlsCount (received es)) := by
          rw [h.options, h.init]
          unfold codeFor
          cases o
          · simp
          · by_cases hz : tlsCount (received es) = 0 <;> simp [hz]
        refine ⟨⟨r0.queued, r0.onwire, r0.hooks, r0.asking⟩, h.conn, h.options, ?_, ?_, ?_, ?_⟩
        · rw [hr, hcnt]
          simp only [h.init, h.options]
          cases o <;> simp
        · rw [hr]; simp [h.ids]
        · intro m hm
          rw [hr]
          rcases List.mem_append.mp hm with hm | hm
          · have := h.below m hm; simp; omega
          · rw [List.mem_singleton.mp hm]; simp [hlen]
        · intro r id' op' c' hget htls
          rw [hr] at hget ⊢
          by_cases hlt : r < (received es).length
          · rw [List.getElem?_append_left hlt] at hget
            rw [toClient_append, h.answers r id' op' c' hget htls, toClient_other (r' := s.requests.length) (by simp) (by omega),
              List.take_append_of_le_length (by omega)]
            rfl
          · have hre : r = (received es).length := by
              have := (List.getElem?_eq_some_iff.mp hget).1
              simp at this
              omega
            subst hre
            rw [List.getElem?_append_right (Nat.le_refl _), Nat.sub_self] at hget
            simp only [List.getElem?_cons_zero, Option.some.injEq, Prod.mk.injEq] at hget
            obtain ⟨rfl, rfl, rfl⟩ := hget
            have hnone : toClient (received es).length s.sent = [] := by
              unfold toClient
              rw [List.map_eq_nil_iff, List.filter_eq_nil_iff]
              intro m hm
              have := h.below m hm
              simp
              omega
            rw [toClient_append, hnone, hlen, List.take_left']
            · simp [toClient, hcode]
            · rfl
      · rw [e]
        have hother : Other (es ++ [.request id op c]) s.requests.length := ⟨(id, op, c), by rw [hr, hlen]; simp, ht⟩
        have k := ok_forward (H := H) (refs' b) hother op c
        obtain ⟨l, es', hl⟩ := k.2.sent
        have hcnt : tlsCount (received es ++ [(id, op, c)]) = tlsCount (received es) := by simp [tlsCount, ht]
        refine ⟨k.1, k.2.conn.trans h.conn, k.2.options.trans h.options, ?_, ?_, ?_, ?_⟩
        · rw [k.2.init, hr, hcnt]; exact h.init
        · rw [k.2.ids, hr]; simp [h.ids]
        · intro m hm
          rw [es'] at hm
          rcases List.mem_append.mp hm with hm | hm
          · have := h.below m hm; rw [hr]; simp; omega
          · obtain ⟨x, hx, _⟩ := hl m hm
            exact (List.getElem?_eq_some_iff.mp hx).1
        · intro r id' op' c' hget htls
          have hno : toClient r l = [] := by
            unfold toClient
            rw [List.map_eq_nil_iff, List.filter_eq_nil_iff]
            intro m hm
            obtain ⟨x, hx, hx2⟩ := hl m hm
            intro hmr
            have hmr : m.r = r := by simpa using hmr
            rw [hmr, hget] at hx
            injection hx with hx
            rw [← hx, htls] at hx2
            cases hx2
          rw [es', toClient_append, hno, List.append_nil]
          rw [hr] at hget ⊢
          have hlt : r < (received es).length := by
            have hb := (List.getElem?_eq_some_iff.mp hget).1
            simp at hb
            refine Classical.byContradiction fun hn => ?_
            have hre : r = (received es).length := by omega
            subst hre
            rw [List.getElem?_append_right (Nat.le_refl _), Nat.sub_self] at hget
            simp only [List.getElem?_cons_zero, Option.some.injEq, Prod.mk.injEq] at hget
            rw [← hget.2.1, ht] at htls
            cases htls
          rw [List.getElem?_append_left hlt] at hget
          rw [List.take_append_of_le_length (by omega)]
          exact h.answers r id' op' c' hget htls
    · rename_i hc
      have hr : received (es ++ [.request id op c]) = received es := by
        rw [C46.received_append]
        have : (isRequest op && decide (id ≠ .int 0)) = false := by
          cases hx : (isRequest op && decide (id ≠ .int 0)) with
          | false => rfl
          | true =>
            refine absurd ?_ hc
            rw [h.conn]
            simpa using hx
        simp only [received, List.filterMap_cons, List.filterMap_nil]
        rw [if_neg (by rw [this]; simp)]
        simp
      exact ⟨h.refs.mono fun _ hx => hx.mono, h.conn, h.options, by rw [hr]; exact h.init, by rw [hr]; exact h.ids, by rw [hr]; exact h.below, by rw [hr]; exact h.answers⟩
  · have hq : ∀ id op c, e ≠ .request id op c := fun id op c he => hq ⟨id, op, c, he⟩
    have hr : received (es ++ [e]) = received es := by
      rw [C46.received_append]
      cases e <;> first | exact absurd rfl (hq _ _ _) | simp [received]
    have k := ok_step (H := H) h.refs e h1 hq
    obtain ⟨l, es', hl⟩ := k.2.sent
    refine ⟨k.1.mono fun _ hx => hx.mono, k.2.conn.trans h.conn, k.2.options.trans h.options, by rw [k.2.init, hr]; exact h.init,
      by rw [k.2.ids, hr]; exact h.ids, ?_, ?_⟩
    · intro m hm
      rw [es'] at hm
      rw [hr]
      rcases List.mem_append.mp hm with hm | hm
      · exact h.below m hm
      · obtain ⟨x, hx, _⟩ := hl m hm
        exact (List.getElem?_eq_some_iff.mp hx).1
    · intro r id' op' c' hget htls
      rw [hr] at hget ⊢
      have hno : toClient r l = [] := by
        unfold toClient
        rw [List.map_eq_nil_iff, List.filter_eq_nil_iff]
        intro m hm
        obtain ⟨x, hx, hx2⟩ := hl m hm
        intro hmr
        have hmr : m.r = r := by simpa using hmr
        rw [hmr, hget] at hx
        injection hx with hx
        rw [← hx, htls] at hx2
        cases hx2
      rw [es', toClient_append, hno, List.append_nil]
      exact h.answers r id' op' c' hget htls

theorem inv_run {H : Hooks} {u o : Bool} : ∀ (fs es : List Event) {s : St}, Inv o es s → Event.lost ∉ fs → Answerable (es ++ fs) →
    Inv o (es ++ fs) (run H s fs)
  | [], es, s, h, _, _ => by simpa [run] using h
  | e :: fs, es, s, h, hl, ha => by
    have hsub : Answerable (es ++ [e]) := by
      intro x hx
      refine ha x ?_
      have : received (es ++ e :: fs) = received (es ++ [e]) ++ received fs := by rw [← C46.received_append]; simp
      rw [this]
      exact List.mem_append_left _ hx
    have := inv_run (H := H) (u := u) fs (es ++ [e]) (h.step (H := H) e (fun x => hl (by simp [x])) hsub) (fun x => hl (by simp [x])) (by simpa using ha)
    simpa [run] using this

/-- **StartTLS.**  While the client is there each StartTLS request has exactly one answer, under its message id:
`unavailable` without TLS options; success for the first one and `operationsError` for all later ones with them. -/
theorem answered (H : Hooks) (u o : Bool) (es : List Event) (hl : Event.lost ∉ es) (ha : Answerable es) (r : Nat) (id : PyVal) (op : Obj)
    (c : Controls) (hr : (received es)[r]? = some (id, op, c)) (ht : isStartTLS op = true) :
    toClient r (run H (start u o) es).sent = [(id, tlsAnswer (codeFor o (tlsCount ((received es).take r))))] := by
  have h0 : Inv o [] (start u o) :=
    ⟨⟨by simp [start], by simp [start], by simp [start], by simp [start]⟩, rfl, rfl, by simp [start, received, tlsCount], by simp [start, received],
      by simp [start], by simp [received]⟩
  have := inv_run (H := H) (u := u) es [] h0 hl (by simpa using ha)
  rw [List.nil_append] at this
  exact this.answers r id op c hr ht

/-- TLS is started exactly if there are options and there was a StartTLS request. -/
theorem started (H : Hooks) (u o : Bool) (es : List Event) (hl : Event.lost ∉ es) (ha : Answerable es) :
    (run H (start u o) es).tlsInitiated = true ↔ o = true ∧ ∃ x ∈ received es, isStartTLS x.2.1 = true := by
  have h0 : Inv o [] (start u o) :=
    ⟨⟨by simp [start], by simp [start], by simp [start], by simp [start]⟩, rfl, rfl, by simp [start, received, tlsCount], by simp [start, received],
      by simp [start], by simp [received]⟩
  have := inv_run (H := H) (u := u) es [] h0 hl (by simpa using ha)
  rw [List.nil_append] at this
  rw [this.init]
  simp only [Bool.and_eq_true, decide_eq_true_eq, tlsCount, ne_eq, List.length_eq_zero_iff, List.filter_eq_nil_iff]
  constructor
  · rintro ⟨h1, h2⟩
    refine ⟨h1, Classical.byContradiction fun hn => h2 fun a ha hs => hn ⟨a, ha, by simpa using hs⟩⟩
  · rintro ⟨h1, x, hx, hs⟩
    exact ⟨h1, fun hn => hn x hx (by simpa using hs)⟩

/-- A history that meets the hypotheses, with a deletion between two StartTLS requests. -/
def twice : List Event :=
  [.request (.int 1) C46.tlsRequest none, .up, .request (.int 2) (C46.delete 1) none, .request (.int 3) C46.tlsRequest none]

theorem twice_received : received twice =
    [(.int 1, C46.tlsRequest, none), (.int 2, C46.delete 1, none), (.int 3, C46.tlsRequest, none)] := by
  simp [received, twice, isRequest, C46.delete, C46.tlsRequest]

theorem twice_answerable : Answerable twice := by
  intro x hx
  rw [twice_received] at hx
  simp only [List.mem_cons, List.not_mem_nil, or_false] at hx
  rcases hx with rfl | rfl | rfl <;>
    exact ⟨C46.unavailable_encodes _ (by decide), fun code hc => C46.tlsAnswer_encodes _ (by decide) code hc⟩

example (H : Hooks) : toClient 0 (run H (start false true) twice).sent = [(.int 1, tlsAnswer 0)] ∧
    toClient 2 (run H (start false true) twice).sent = [(.int 3, tlsAnswer 1)] := by
  have hr := twice_received
  constructor
  · rw [answered H false true twice (by simp [twice]) twice_answerable 0 (.int 1) C46.tlsRequest none (by rw [hr]; rfl) rfl, hr]
    rfl
  · rw [answered H false true twice (by simp [twice]) twice_answerable 2 (.int 3) C46.tlsRequest none (by rw [hr]; rfl) rfl, hr]
    simp [tlsCount, codeFor, C46.tlsRequest, C46.delete, isStartTLS]

end Verif.C72
