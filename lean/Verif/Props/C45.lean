import Verif.Lemmas.ProxyBase
/-
C45: the proxy preserves response order for every timing of its hooks.

`in_order_partial` holds for every history in which the client stays connected and everything that the hooks give can be
encoded: whatever the order in which the hooks of a request fire, what the client has been sent for the request is
exactly the results of the hooks that have fired before the first one that has not, in the order in which the responses
arrived.  Once all of them have fired, all have been relayed (`all_relayed`).  `logged` says which responses have arrived.

Missing from the full statement: a hook that fails holds back every later response of its request for ever
(`failed_hook_blocks`), and so does a result that cannot be encoded (`unencodable_blocks`).
-/
namespace Verif.C45
open Verif.Ldap Verif.Server Verif.ProxyBase Verif.Spec.ProxyBase
open Verif.Merger (isFinal)
open Verif.Client (Controls isResponse needsAnswer)

/-- Everything that hooks have given can be sent to the client. -/
def Sendable (s : St) : Prop :=
  ∀ (c : Called) (q : Request) (x : Obj), c ∈ s.hooks → s.requests[c.r]? = some q → result c = some x → encodes q.id x = true

/-- The state of one request. -/
structure Relays (s : St) (r : Nat) (q : Request) (pre : List Nat) : Prop where
  split : numbers r s.hooks = pre ++ q.dseq
  fired : ∀ d ∈ pre, (outcome s.hooks d).isSome = true
  sent : relayed r s.sent = results q.id s.hooks pre
  head : ∀ d, q.dseq.head? = some d → q.linked = true ∧ outcome s.hooks d = none

structure Inv (s : St) : Prop where
  conn : s.connected = true
  known : ∀ c ∈ s.hooks, c.r < s.requests.length
  each : ∀ (r : Nat) (q : Request), s.requests[r]? = some q → ∃ pre, Relays s r q pre
  unknown : ∀ r, s.requests[r]? = none → relayed r s.sent = []

theorem Inv.start (u o : Bool) : Inv (start u o) :=
  ⟨rfl, by simp [ProxyBase.start], by simp [ProxyBase.start], fun _ _ => rfl⟩

theorem numbers_nil {s : St} {r : Nat} (h : ∀ c ∈ s.hooks, c.r ≠ r) : numbers r s.hooks = [] := by
  unfold numbers
  rw [List.filter_eq_nil_iff]
  intro d hd
  have hl := List.mem_range.mp hd
  simp only [List.getElem?_eq_getElem hl, Option.map_some, decide_eq_true_eq, Option.some.injEq]
  exact h _ (List.getElem_mem hl)

/-! ### Which hooks are called -/

theorem lt_of_some {α : Type} {l : List α} {i : Nat} {x : α} (h : l[i]? = some x) : i < l.length := (List.getElem?_eq_some_iff.mp h).1

theorem drain_hooks {r : Nat} {q : Request} : ∀ (l : List Nat) (s : St), (drain s r q l).hooks = s.hooks ∧
    (drain s r q l).onwire = s.onwire ∧ (drain s r q l).upConnected = s.upConnected ∧ (drain s r q l).connected = s.connected
  | [], s => ⟨rfl, rfl, rfl, rfl⟩
  | d :: l, s => by
    unfold drain
    split
    · rename_i x _
      have h : (reply s r true x).1.hooks = s.hooks ∧ (reply s r true x).1.onwire = s.onwire ∧
          (reply s r true x).1.upConnected = s.upConnected ∧ (reply s r true x).1.connected = s.connected := by
        unfold reply
        repeat' split
        all_goals exact ⟨rfl, rfl, rfl, rfl⟩
      generalize reply s r true x = y at h
      obtain ⟨s1, b⟩ := y
      cases b with
      | true => exact h
      | false =>
        obtain ⟨a1, a2, a3, a4⟩ := drain_hooks l s1
        exact ⟨a1.trans h.1, a2.trans h.2.1, a3.trans h.2.2.1, a4.trans h.2.2.2⟩
    · exact ⟨rfl, rfl, rfl, rfl⟩

/-- The hooks after a response: one more, for the request that is on the wire under the message id of the response. -/
theorem response_hooks (H : Hooks) (s : St) (m : Int) (op : Obj) : (response H s m op).hooks =
    if s.upConnected && isResponse op then
      match s.onwire.lookup m with
      | none => s.hooks
      | some r =>
        if r < s.requests.length then s.hooks ++ [⟨r, op, (H.after s.hooks.length op).state⟩] else s.hooks
    else s.hooks := by
  unfold response
  split
  · cases ho : s.onwire.lookup m with
    | none => rfl
    | some r =>
      simp only
      cases hq : s.requests[r]? with
      | none =>
        simp only
        rw [if_neg (by have := List.getElem?_eq_none_iff.mp hq; omega)]
      | some q =>
        simp only
        rw [if_pos (lt_of_some hq)]
        split
        · split
          · exact (drain_hooks _ _).1
          · rfl
        · split
          · exact (drain_hooks _ _).1
          · rfl
  · rfl

theorem hook_hooks (s : St) (d : Nat) (x : Option (Option Obj)) : (hook s d x).hooks =
    match s.hooks[d]? with
    | some ⟨r, op, .waiting⟩ => s.hooks.set d ⟨r, op, fires x⟩
    | _ => s.hooks := by
  unfold hook
  split
  · rename_i e
    simp only [e]
    split
    · rfl
    · split
      · exact (drain_hooks _ _).1
      · rfl
  · rename_i hn
    split
    · rename_i e; exact absurd e (hn _ _)
    · rfl

theorem append_eq {l : List Called} : l ++ [] = l := by simp

/-- **The log of the hooks.**  A response of the proxied server for a request that is on the wire calls one hook, for that
request and with that response; nothing else calls one.  No hook is forgotten or given to another request. -/
theorem logged (H : Hooks) (s : St) (e : Event) : ((step H s e).hooks.map fun c => (c.r, c.op)) =
    (s.hooks.map fun c => (c.r, c.op)) ++
    match e with
    | .response m op =>
      if s.upConnected && isResponse op then
        match s.onwire.lookup m with
        | none => []
        | some r => if r < s.requests.length then [(r, op)] else []
      else []
    | _ => [] := by
  have other : (∀ m op, e ≠ .response m op) → (∀ d x, e ≠ .hook d x) → e ≠ .lost →
      ((step H s e).hooks.map fun c => (c.r, c.op)) = (s.hooks.map fun c => (c.r, c.op)) ++ [] := by
    intro h1 h2 h3
    rw [(frame_step H s e h1 h2 h3).hooks]
    simp
  cases e with
  | response m op =>
    show (response H s m op).hooks.map _ = _
    rw [response_hooks]
    simp only
    split
    · cases s.onwire.lookup m with
      | none => simp
      | some r =>
        simp only
        split <;> simp
    · simp
  | hook d x =>
    show (hook s d x).hooks.map _ = _
    rw [hook_hooks]
    simp only [List.append_nil]
    split
    · rename_i r op e
      rw [List.map_set]
      have : (s.hooks.map fun c => (c.r, c.op))[d]? = some (r, op) := by simp [e]
      refine List.ext_getElem? fun i => ?_
      rw [List.getElem?_set]
      split
      · rename_i hi
        subst hi
        rw [if_pos (lt_of_some this), this]
      · rfl
    · rfl
  | lost => simp [step]
  | up => exact other (by simp) (by simp) (by simp)
  | tls => exact other (by simp) (by simp) (by simp)
  | failed => exact other (by simp) (by simp) (by simp)
  | upLost => exact other (by simp) (by simp) (by simp)
  | request id op c => exact other (by simp) (by simp) (by simp)
  | asked r l x => exact other (by simp) (by simp) (by simp)

/-! ### The invariant -/

theorem relays_frame {s s' : St} (f : Frame s s') {r : Nat} {q q' : Request} {pre : List Nat} (h : Relays s r q pre)
    (hid : q'.id = q.id) (hd : q'.dseq = q.dseq) (hl : q'.linked = q.linked) : Relays s' r q' pre :=
  ⟨by rw [f.hooks, hd]; exact h.split, by rw [f.hooks]; exact h.fired, by rw [f.hooks, f.rel r, hid]; exact h.sent,
    by rw [f.hooks, hd, hl]; exact h.head⟩

theorem Inv.frame {s s' : St} (h : Inv s) (f : Frame s s') : Inv s' := by
  have hlen : s.requests.length ≤ s'.requests.length := by
    refine Classical.byContradiction fun hn => ?_
    have hlt : s'.requests.length < s.requests.length := by omega
    obtain ⟨q', hq', _⟩ := f.old s'.requests.length _ (List.getElem?_eq_getElem hlt)
    simp at hq'
  refine ⟨f.conn.trans h.conn, ?_, ?_, ?_⟩
  · intro c hc
    rw [f.hooks] at hc
    exact Nat.lt_of_lt_of_le (h.known c hc) hlen
  · intro r q' hq'
    cases hq : s.requests[r]? with
    | some q =>
      obtain ⟨q2, e2, a, b, c⟩ := f.old r q hq
      rw [hq'] at e2
      cases e2
      obtain ⟨pre, hp⟩ := h.each r q hq
      exact ⟨pre, relays_frame f hp a b c⟩
    | none =>
      have hd := f.new r q' hq' hq
      refine ⟨[], ?_, by simp, ?_, by simp [hd]⟩
      · rw [f.hooks, hd]
        refine numbers_nil fun c hc hr => ?_
        have := h.known c hc
        have := List.getElem?_eq_none_iff.mp hq
        omega
      · rw [f.rel r, h.unknown r hq]
        rfl
  · intro r hr
    have := List.getElem?_eq_none_iff.mp hr
    rw [f.rel r, h.unknown r (List.getElem?_eq_none_iff.mpr (by omega))]

theorem set_get {l : List Request} {r r' : Nat} {q q' : Request} (h : (l.set r q)[r']? = some q') :
    (r' = r ∧ q' = q) ∨ (r' ≠ r ∧ l[r']? = some q') := by
  rw [List.getElem?_set] at h
  split at h
  · rename_i e
    split at h
    · cases h; exact .inl ⟨e.symm, rfl⟩
    · simp at h
  · rename_i e
    exact .inr ⟨fun x => e x.symm, h⟩

/-- Other requests do not notice. -/
theorem relays_other {s : St} {r' : Nat} {q' : Request} {pre : List Nat} (h : Relays s r' q' pre) {hooks : List Called} {sent : List Sent}
    {s' : St} (hh : s'.hooks = hooks) (hs : s'.sent = s.sent ++ sent) (hn : numbers r' hooks = numbers r' s.hooks)
    (ho : ∀ d ∈ numbers r' s.hooks, outcome hooks d = outcome s.hooks d) (hr : relayed r' sent = []) : Relays s' r' q' pre := by
  have hp : ∀ d ∈ pre, outcome hooks d = outcome s.hooks d := fun d hd => ho d (by rw [h.split]; exact List.mem_append_left _ hd)
  refine ⟨by rw [hh, hn]; exact h.split, fun d hd => by rw [hh, hp d hd]; exact h.fired d hd, ?_, ?_⟩
  · have : relayed r' (s.sent ++ sent) = relayed r' s.sent ++ relayed r' sent := by simp [relayed]
    rw [hs, this, hr, List.append_nil, h.sent, hh]
    exact filterMap_congr' fun d hd => by rw [hp d hd]
  · intro d hd
    obtain ⟨h1, h2⟩ := h.head d hd
    refine ⟨h1, ?_⟩
    rw [hh, ho d, h2]
    rw [h.split]
    exact List.mem_append_right _ (List.mem_of_mem_head? hd)

/-- Draining a request restores its invariant. -/
theorem inv_drain (s : St) (hc : s.connected = true) (hk : ∀ c ∈ s.hooks, c.r < s.requests.length) {r : Nat} {q : Request}
    (hq : s.requests[r]? = some q) {pre l : List Nat} (hsplit : numbers r s.hooks = pre ++ l)
    (hfired : ∀ d ∈ pre, (outcome s.hooks d).isSome = true) (hsent : relayed r s.sent = results q.id s.hooks pre)
    (he : ∀ d ∈ l, ∀ x, outcome s.hooks d = some (some x) → encodes q.id x = true)
    (hother : ∀ (r' : Nat) (q' : Request), r' ≠ r → s.requests[r']? = some q' → ∃ pre, Relays s r' q' pre)
    (hnone : ∀ r, s.requests[r]? = none → relayed r s.sent = []) : Inv (drain s r q l) := by
  obtain ⟨a, b, l', h1, h2, h3, h4, h5, h6⟩ := drain_spec l s hc hq he
  rw [h4]
  have happ : ∀ r', relayed r' (s.sent ++ l') = relayed r' s.sent ++ relayed r' l' := fun r' => by simp [relayed]
  refine ⟨hc, by simpa using hk, ?_, ?_⟩
  · intro r' q' hq'
    rcases set_get hq' with ⟨rfl, rfl⟩ | ⟨hne, hq'⟩
    · refine ⟨pre ++ a, ?_, ?_, ?_, ?_⟩
      · show numbers r' s.hooks = _
        rw [hsplit, h1, List.append_assoc]
      · intro d hd
        rcases List.mem_append.mp hd with hd | hd
        · exact hfired d hd
        · exact h2 d hd
      · show relayed r' (s.sent ++ l') = results q.id s.hooks (pre ++ a)
        rw [happ, hsent, h5]
        simp [results]
      · intro d hd
        refine ⟨?_, h3 d hd⟩
        show (!b.isEmpty) = true
        cases b with
        | nil => simp at hd
        | cons _ _ => rfl
    · obtain ⟨p, hp⟩ := hother r' q' hne hq'
      exact ⟨p, relays_other hp rfl rfl rfl (fun _ _ => rfl) (h6 r' hne)⟩
  · intro r' hr'
    have hr2 : s.requests[r']? = none := by
      rw [List.getElem?_eq_none_iff] at hr' ⊢
      simpa using hr'
    have hne : r' ≠ r := fun e => by rw [e, hq] at hr2; simp at hr2
    rw [happ, hnone r' hr2, h6 r' hne]
    rfl

theorem numbers_append_other {r r' : Nat} {hooks : List Called} {op : Obj} {st : HookState} (h : r' ≠ r) :
    numbers r' (hooks ++ [⟨r, op, st⟩]) = numbers r' hooks := by
  rw [numbers_append, if_neg (fun e => h e.symm), List.append_nil]

theorem outcome_mem {hooks : List Called} {d : Nat} {x : Obj} (h : outcome hooks d = some (some x)) :
    ∃ c ∈ hooks, hooks[d]? = some c ∧ result c = some x := by
  obtain ⟨r, op, e⟩ := getElem?_of_outcome h
  exact ⟨_, List.mem_of_getElem? e, e, rfl⟩

theorem numbers_r {r d : Nat} {hooks : List Called} {c : Called} (h : d ∈ numbers r hooks) (hc : hooks[d]? = some c) : c.r = r := by
  have := (List.mem_filter.mp h).2
  simpa [hc] using this

/-- The requests keep their message ids. -/
def Same (s s' : St) : Prop :=
  ∀ (r : Nat) (q : Request), s.requests[r]? = some q → ∃ q', s'.requests[r]? = some q' ∧ q'.id = q.id

theorem drain_same {r : Nat} {q : Request} : ∀ (l : List Nat) (s : St), s.requests[r]? = some q → Same s (drain s r q l) := by
  have set : ∀ (s : St) (q' : Request), s.requests[r]? = some q → q'.id = q.id → Same s (setRequest s r q') := by
    intro s q' h hid r2 q2 h2
    unfold setRequest
    simp only [List.getElem?_set]
    by_cases e : r = r2
    · subst e
      rw [h] at h2
      cases h2
      rw [if_pos rfl, if_pos (lt_of_some h)]
      exact ⟨q', rfl, hid⟩
    · rw [if_neg e]; exact ⟨q2, h2, rfl⟩
  intro l
  induction l with
  | nil => exact fun s h => set s _ h rfl
  | cons d l ih =>
    intro s h
    unfold drain
    split
    · rename_i x _
      have hr : (reply s r true x).1.requests = s.requests := by
        unfold reply
        repeat' split
        all_goals rfl
      generalize reply s r true x = y at hr
      obtain ⟨s1, b⟩ := y
      simp only at hr
      have h1 : s1.requests[r]? = some q := by rw [hr]; exact h
      have back : ∀ s2, Same s1 s2 → Same s s2 := fun s2 hs r2 q2 h2 => hs r2 q2 (by rw [hr]; exact h2)
      cases b with
      | true => exact back _ (set s1 _ h1 rfl)
      | false => exact back _ (ih s1 h1)
    · exact set s _ h rfl

theorem response_same (H : Hooks) (s : St) (m : Int) (op : Obj) : Same s (response H s m op) := by
  unfold response
  split
  · split
    · exact fun r q h => ⟨q, h, rfl⟩
    · rename_i r _
      split
      · exact fun r q h => ⟨q, h, rfl⟩
      · rename_i q hq
        simp only
        have key : Same s (if q.dseq = [] then
            drain { s with hooks := s.hooks ++ [⟨r, op, (H.after s.hooks.length op).state⟩] } r q [s.hooks.length]
          else setRequest { s with hooks := s.hooks ++ [⟨r, op, (H.after s.hooks.length op).state⟩] } r
            { q with dseq := q.dseq ++ [s.hooks.length] }) := by
          split
          · exact fun r2 q2 h2 => drain_same (q := q) [s.hooks.length]
              { s with hooks := s.hooks ++ [⟨r, op, (H.after s.hooks.length op).state⟩] } hq r2 q2 h2
          · intro r2 q2 h2
            unfold setRequest
            simp only [List.getElem?_set]
            by_cases e : r = r2
            · subst e
              rw [hq] at h2
              cases h2
              rw [if_pos rfl, if_pos (lt_of_some hq)]
              exact ⟨_, rfl, rfl⟩
            · rw [if_neg e]; exact ⟨q2, h2, rfl⟩
        split <;> exact key
  · exact fun r q h => ⟨q, h, rfl⟩

theorem hook_same (s : St) (d : Nat) (x : Option (Option Obj)) : Same s (hook s d x) := by
  unfold hook
  split
  · simp only
    split
    · exact fun r q h => ⟨q, h, rfl⟩
    · rename_i r op _ _ q hq
      split
      · exact fun r2 q2 h2 => drain_same (q := q) q.dseq { s with hooks := s.hooks.set d ⟨r, op, fires x⟩ } hq r2 q2 h2
      · exact fun r q h => ⟨q, h, rfl⟩
  · exact fun r q h => ⟨q, h, rfl⟩

/-- Nothing that a hook has given is taken back. -/
theorem sendable_before {H : Hooks} {s : St} {e : Event} (hl : e ≠ .lost) (h : Sendable (step H s e)) : Sendable s := by
  have same : Same s (step H s e) := by
    by_cases h1 : ∃ m op, e = .response m op
    · obtain ⟨m, op, rfl⟩ := h1; exact response_same H s m op
    by_cases h2 : ∃ d x, e = .hook d x
    · obtain ⟨d, x, rfl⟩ := h2; exact hook_same s d x
    have f := frame_step H s e (fun m op he => h1 ⟨m, op, he⟩) (fun d x he => h2 ⟨d, x, he⟩) hl
    intro r q hq
    obtain ⟨q', a, b, _⟩ := f.old r q hq
    exact ⟨q', a, b⟩
  intro c q x hc hq hx
  obtain ⟨q', hq', hid⟩ := same c.r q hq
  rw [← hid]
  refine h c q' x ?_ hq' hx
  by_cases h1 : ∃ m op, e = .response m op
  · obtain ⟨m, op, rfl⟩ := h1
    show c ∈ (response H s m op).hooks
    rw [response_hooks]
    split
    · split
      · exact hc
      · split
        · exact List.mem_append_left _ hc
        · exact hc
    · exact hc
  by_cases h2 : ∃ d x, e = .hook d x
  · obtain ⟨d, y, rfl⟩ := h2
    show c ∈ (hook s d y).hooks
    rw [hook_hooks]
    split
    · rename_i r op e
      obtain ⟨i, hi⟩ := List.getElem?_of_mem hc
      refine List.mem_of_getElem? (i := i) ?_
      rw [List.getElem?_set, if_neg]
      · exact hi
      · rintro rfl
        rw [e] at hi
        cases hi
        simp [result] at hx
    · exact hc
  rw [(frame_step H s e (fun m op he => h1 ⟨m, op, he⟩) (fun d x he => h2 ⟨d, x, he⟩) hl).hooks]
  exact hc

/-- A response. -/
theorem Inv.response {H : Hooks} {s : St} (h : Inv s) (m : Int) (op : Obj) (hs : Sendable (response H s m op)) : Inv (response H s m op) := by
  have hsame := response_same H s m op
  have hhooks := response_hooks H s m op
  unfold ProxyBase.response at hs hsame hhooks ⊢
  split
  · rename_i hup
    rw [if_pos hup] at hs hsame hhooks
    cases ho : s.onwire.lookup m with
    | none => simpa only [ho] using h
    | some r =>
      cases hq : s.requests[r]? with
      | none => simpa only [ho, hq] using h
      | some q =>
        simp only [ho, hq, if_pos (lt_of_some hq)] at hs hsame hhooks ⊢
        obtain ⟨pre, hp⟩ := h.each r q hq
        -- leave the release of the slot aside
        suffices hm : Inv (if q.dseq = [] then
            drain { s with hooks := s.hooks ++ [⟨r, op, (H.after s.hooks.length op).state⟩] } r q [s.hooks.length]
          else setRequest { s with hooks := s.hooks ++ [⟨r, op, (H.after s.hooks.length op).state⟩] } r
            { q with dseq := q.dseq ++ [s.hooks.length] }) by
          split
          · exact ⟨hm.conn, hm.known, fun r q hq => by
              obtain ⟨p, hp⟩ := hm.each r q hq
              exact ⟨p, hp.split, hp.fired, hp.sent, hp.head⟩, hm.unknown⟩
          · exact hm
        have hknown : ∀ c ∈ s.hooks ++ [⟨r, op, (H.after s.hooks.length op).state⟩], c.r < s.requests.length := by
          intro c hc
          rcases List.mem_append.mp hc with hc | hc
          · exact h.known c hc
          · rw [List.mem_singleton.mp hc]; exact lt_of_some hq
        have hold : ∀ d ∈ numbers r s.hooks,
            outcome (s.hooks ++ [⟨r, op, (H.after s.hooks.length op).state⟩]) d = outcome s.hooks d :=
          fun d hd => outcome_append (numbers_lt hd)
        have hothers : ∀ (r' : Nat) (q' : Request), r' ≠ r → s.requests[r']? = some q' → ∀ s' : St,
            s'.hooks = s.hooks ++ [⟨r, op, (H.after s.hooks.length op).state⟩] → s'.sent = s.sent → ∃ pre, Relays s' r' q' pre := by
          intro r' q' hne hq' s' e1 e2
          obtain ⟨p, hp⟩ := h.each r' q' hq'
          exact ⟨p, relays_other hp e1 (sent := []) (by rw [e2, List.append_nil]) (numbers_append_other hne)
            (fun d hd => outcome_append (numbers_lt hd)) rfl⟩
        have hpre : ∀ d ∈ pre, d ∈ numbers r s.hooks := fun d hd => by rw [hp.split]; exact List.mem_append_left _ hd
        have hnum : numbers r (s.hooks ++ [⟨r, op, (H.after s.hooks.length op).state⟩]) = pre ++ (q.dseq ++ [s.hooks.length]) := by
          rw [numbers_append, if_pos rfl, hp.split, List.append_assoc]
        have hres : relayed r s.sent = results q.id (s.hooks ++ [⟨r, op, (H.after s.hooks.length op).state⟩]) pre := by
          rw [hp.sent]
          exact filterMap_congr' fun d hd => by rw [hold d (hpre d hd)]
        split
        · rename_i hd
          refine inv_drain { s with hooks := s.hooks ++ [⟨r, op, (H.after s.hooks.length op).state⟩] } h.conn hknown hq (pre := pre)
            (by rw [hnum, hd]; rfl) ?_ hres ?_ ?_ h.unknown
          · intro d hd
            show (outcome (s.hooks ++ _) d).isSome = true
            rw [hold d (hpre d hd)]
            exact hp.fired d hd
          · intro d hd' x hx
            obtain ⟨q', hq', hid⟩ := hsame r q hq
            rw [← hid]
            obtain ⟨c, hc, hc1, hc2⟩ := outcome_mem hx
            have hr : c.r = r := numbers_r (hooks := s.hooks ++ [⟨r, op, (H.after s.hooks.length op).state⟩])
              (by rw [hnum, hd]; simp only [List.nil_append]; exact List.mem_append_right _ hd') hc1
            refine hs c q' x ?_ (by rw [hr]; exact hq') hc2
            rw [hhooks, if_pos hup]
            exact hc
          · exact fun r' q' hne hq' => hothers r' q' hne hq' _ rfl rfl
        · rename_i hd
          refine ⟨h.conn, by simpa [setRequest] using hknown, ?_, ?_⟩
          · intro r' q' hq'
            rcases set_get hq' with ⟨rfl, rfl⟩ | ⟨hne, hq'⟩
            · refine ⟨pre, hnum, ?_, hres, ?_⟩
              · intro d hd
                show (outcome (s.hooks ++ _) d).isSome = true
                rw [hold d (hpre d hd)]
                exact hp.fired d hd
              · intro d hd2
                have hd3 : q.dseq.head? = some d := by
                  cases hqd : q.dseq with
                  | nil => exact absurd hqd hd
                  | cons a b => simpa [hqd] using hd2
                obtain ⟨h1, h2⟩ := hp.head d hd3
                refine ⟨h1, ?_⟩
                show outcome (s.hooks ++ _) d = none
                rw [hold d (by rw [hp.split]; exact List.mem_append_right _ (List.mem_of_mem_head? hd3))]
                exact h2
            · exact hothers r' q' hne hq' _ rfl rfl
          · intro r' hr'
            refine h.unknown r' ?_
            rw [List.getElem?_eq_none_iff] at hr' ⊢
            simpa [setRequest] using hr'
  · exact h

theorem numbers_set {r d : Nat} {hooks : List Called} {c c' : Called} (h : hooks[d]? = some c) (hr : c'.r = c.r) :
    numbers r (hooks.set d c') = numbers r hooks := by
  unfold numbers
  rw [List.length_set]
  refine List.filter_congr fun i _ => ?_
  rw [List.getElem?_set]
  split
  · rename_i e
    subst e
    rw [if_pos (lt_of_some h), h]
    simp [hr]
  · rfl

theorem outcome_set {d i : Nat} {hooks : List Called} {c : Called} (h : i ≠ d) : outcome (hooks.set d c) i = outcome hooks i := by
  unfold outcome
  rw [List.getElem?_set, if_neg (fun e => h e.symm)]

/-- A hook fires. -/
theorem Inv.hook {s : St} (h : Inv s) (d : Nat) (x : Option (Option Obj)) (hs : Sendable (hook s d x)) : Inv (hook s d x) := by
  have hsame := hook_same s d x
  have hhooks := hook_hooks s d x
  unfold ProxyBase.hook at hs hsame hhooks ⊢
  split
  · rename_i r op e
    simp only [e] at hs hsame hhooks
    have hlt : r < s.requests.length := h.known _ (List.mem_of_getElem? e)
    obtain ⟨q, hq⟩ : ∃ q, s.requests[r]? = some q := ⟨_, List.getElem?_eq_getElem hlt⟩
    simp only [hq] at hs hsame hhooks ⊢
    obtain ⟨pre, hp⟩ := h.each r q hq
    have hwait : outcome s.hooks d = none := by unfold outcome; rw [e]
    have hknown : ∀ c ∈ s.hooks.set d ⟨r, op, fires x⟩, c.r < s.requests.length := by
      intro c hc
      rcases List.mem_or_eq_of_mem_set hc with hc | rfl
      · exact h.known c hc
      · exact hlt
    have hnum : ∀ r', numbers r' (s.hooks.set d ⟨r, op, fires x⟩) = numbers r' s.hooks :=
      fun r' => numbers_set e rfl
    have hdr : ∀ r', d ∈ numbers r' s.hooks → r' = r := fun r' hd => (numbers_r hd e).symm
    have hnotpre : ∀ i ∈ pre, i ≠ d := by
      rintro i hi rfl
      have := hp.fired i hi
      rw [hwait] at this
      simp at this
    have hothers : ∀ (r' : Nat) (q' : Request), r' ≠ r → s.requests[r']? = some q' → ∀ s' : St,
        s'.hooks = s.hooks.set d ⟨r, op, fires x⟩ → s'.sent = s.sent →
        ∃ pre, Relays s' r' q' pre := by
      intro r' q' hne hq' s' e1 e2
      obtain ⟨p, hp⟩ := h.each r' q' hq'
      exact ⟨p, relays_other hp e1 (sent := []) (by rw [e2, List.append_nil]) (hnum r')
        (fun i hi => outcome_set fun hid => hne (hdr r' (hid ▸ hi))) rfl⟩
    have hres : relayed r s.sent = results q.id (s.hooks.set d ⟨r, op, fires x⟩) pre := by
      rw [hp.sent]
      exact filterMap_congr' fun i hi => by rw [outcome_set (hnotpre i hi)]
    split
    · refine inv_drain { s with hooks := s.hooks.set d ⟨r, op, fires x⟩ } h.conn hknown hq (pre := pre) ((hnum r).trans hp.split) ?_ hres ?_ ?_ h.unknown
      · intro i hi
        show (outcome (s.hooks.set d _) i).isSome = true
        rw [outcome_set (hnotpre i hi)]
        exact hp.fired i hi
      · intro i hi y hy
        obtain ⟨q', hq', hid⟩ := hsame r q hq
        rw [← hid]
        obtain ⟨c, hc, hc1, hc2⟩ := outcome_mem hy
        have hr : c.r = r := numbers_r (hooks := s.hooks.set d ⟨r, op, fires x⟩)
          (by rw [hnum, hp.split]; exact List.mem_append_right _ hi) hc1
        refine hs c q' y ?_ (by rw [hr]; exact hq') hc2
        rw [hhooks]
        exact hc
      · exact fun r' q' hne hq' => hothers r' q' hne hq' _ rfl rfl
    · rename_i hlink
      refine ⟨h.conn, hknown, ?_, h.unknown⟩
      intro r' q' hq'
      by_cases hne : r' = r
      · subst hne
        have hqq : q' = q := by
          have hq2 : s.requests[r']? = some q' := hq'
          rw [hq] at hq2
          exact (Option.some.inj hq2).symm
        subst hqq
        refine ⟨pre, (hnum r').trans hp.split, ?_, hres, ?_⟩
        · intro i hi
          show (outcome (s.hooks.set d _) i).isSome = true
          rw [outcome_set (hnotpre i hi)]
          exact hp.fired i hi
        · intro i hi
          obtain ⟨h1, h2⟩ := hp.head i hi
          refine ⟨h1, ?_⟩
          show outcome (s.hooks.set d _) i = none
          rw [outcome_set, h2]
          rintro rfl
          exact hlink (by simp [h1, hi])
      · exact hothers r' q' hne hq' _ rfl rfl
  · exact h

theorem Inv.step {H : Hooks} {s : St} (h : Inv s) {e : Event} (hl : e ≠ .lost) (hs : Sendable (step H s e)) : Inv (step H s e) := by
  by_cases h1 : ∃ m op, e = .response m op
  · obtain ⟨m, op, rfl⟩ := h1; exact h.response m op hs
  by_cases h2 : ∃ d x, e = .hook d x
  · obtain ⟨d, x, rfl⟩ := h2; exact h.hook d x hs
  exact h.frame (frame_step H s e (fun m op he => h1 ⟨m, op, he⟩) (fun d x he => h2 ⟨d, x, he⟩) hl)

theorem run_snoc (H : Hooks) (s : St) (es : List Event) (e : Event) : run H s (es ++ [e]) = step H (run H s es) e := by
  simp [run]

theorem inv_run {H : Hooks} {u o : Bool} : ∀ es : List Event, Event.lost ∉ es.reverse → Sendable (run H (start u o) es.reverse) →
    Inv (run H (start u o) es.reverse)
  | [], _, _ => Inv.start u o
  | e :: es, hl, hs => by
    rw [List.reverse_cons] at hl hs ⊢
    rw [run_snoc] at hs ⊢
    have hne : e ≠ .lost := fun h => hl (by rw [h]; simp)
    exact (inv_run es (fun h => hl (List.mem_append_left _ h)) (sendable_before hne hs)).step hne hs

/-! ### The theorems -/

theorem takeWhile_split {α : Type} {p : α → Bool} : ∀ {a b : List α}, (∀ x ∈ a, p x = true) → (∀ x, b.head? = some x → p x = false) →
    (a ++ b).takeWhile p = a
  | [], [], _, _ => rfl
  | [], x :: b, _, h => by simp [h x rfl]
  | x :: a, b, h, h' => by
    rw [List.cons_append, List.takeWhile_cons, h x (List.mem_cons_self ..)]
    simp [takeWhile_split (fun y hy => h y (List.mem_cons_of_mem _ hy)) h']

theorem hasFired_outcome {hooks : List Called} {d : Nat} {c : Called} (h : hooks[d]? = some c) :
    hasFired c = (outcome hooks d).isSome ∧ result c = (outcome hooks d).join := by
  unfold outcome hasFired result
  rw [h]
  obtain ⟨r, op, st⟩ := c
  cases st <;> exact ⟨rfl, rfl⟩

theorem relays_arrivals {s : St} {r : Nat} {q : Request} {pre : List Nat} (h : Relays s r q pre) :
    relayed r s.sent = ((arrivals r s.hooks).takeWhile hasFired).filterMap fun c => (result c).map fun x => (q.id, x) := by
  have hall : ∀ d ∈ pre ++ q.dseq, d < s.hooks.length := fun d hd => numbers_lt (by rw [h.split]; exact hd)
  have e : ((arrivals r s.hooks).takeWhile hasFired) = pre.filterMap fun d => s.hooks[d]? := by
    rw [arrivals_numbers, h.split, List.filterMap_append]
    refine takeWhile_split ?_ ?_
    · intro c hc
      obtain ⟨d, hd, hc⟩ := List.mem_filterMap.mp hc
      rw [(hasFired_outcome hc).1]
      exact h.fired d hd
    · intro c hc
      cases hd : q.dseq with
      | nil => simp [hd] at hc
      | cons d ds =>
        have hlt : d < s.hooks.length := hall d (by simp [hd])
        rw [hd, List.filterMap_cons, List.getElem?_eq_getElem hlt] at hc
        simp only [List.head?_cons, Option.some.injEq] at hc
        rw [← hc, (hasFired_outcome (List.getElem?_eq_getElem hlt)).1, (h.head d (by simp [hd])).2]
        rfl
  rw [h.sent, e, List.filterMap_filterMap]
  unfold results
  refine filterMap_congr' fun d hd => ?_
  have hlt : d < s.hooks.length := hall d (List.mem_append_left _ hd)
  rw [List.getElem?_eq_getElem hlt]
  simp only [Option.bind_some]
  rw [(hasFired_outcome (List.getElem?_eq_getElem hlt)).2]

/-- **Responses are relayed in the order of their arrival.**  For all hooks and all histories in which the client stays
connected: what the client has been sent for its `r`-th request is the results of the hooks that have fired before the
first one that has not, in the order in which the responses arrived, under the message id of the request. -/
theorem in_order_partial (H : Hooks) (u o : Bool) (es : List Event) (hl : Event.lost ∉ es) (hs : Sendable (run H (start u o) es))
    (r : Nat) (q : Request) (hq : (run H (start u o) es).requests[r]? = some q) :
    relayed r (run H (start u o) es).sent =
      ((arrivals r (run H (start u o) es).hooks).takeWhile hasFired).filterMap fun c => (result c).map fun x => (q.id, x) := by
  have h := inv_run (H := H) (u := u) (o := o) es.reverse (by rwa [List.reverse_reverse]) (by rwa [List.reverse_reverse])
  rw [List.reverse_reverse] at h
  obtain ⟨pre, hp⟩ := h.each r q hq
  exact relays_arrivals hp

/-- Once every hook of the request has fired, all results have been relayed. -/
theorem all_relayed (H : Hooks) (u o : Bool) (es : List Event) (hl : Event.lost ∉ es) (hs : Sendable (run H (start u o) es))
    (r : Nat) (q : Request) (hq : (run H (start u o) es).requests[r]? = some q)
    (hf : ∀ c ∈ arrivals r (run H (start u o) es).hooks, hasFired c = true) :
    relayed r (run H (start u o) es).sent =
      (arrivals r (run H (start u o) es).hooks).filterMap fun c => (result c).map fun x => (q.id, x) := by
  rw [in_order_partial H u o es hl hs r q hq]
  congr 1
  have := takeWhile_split (p := hasFired) (a := arrivals r (run H (start u o) es).hooks) (b := []) hf (by simp)
  rwa [List.append_nil] at this

/-! ### When the client is gone -/

theorem drain_quiet {r : Nat} {q : Request} : ∀ (l : List Nat) (s : St), s.connected = false → (drain s r q l).sent = s.sent
  | [], _, _ => rfl
  | d :: l, s, hc => by
    unfold drain
    split
    · rename_i x _
      have h : (reply s r true x).1 = s := by
        unfold reply
        repeat' split
        all_goals first | rfl | simp_all
      generalize reply s r true x = y at h
      obtain ⟨s1, b⟩ := y
      simp only at h
      subst h
      cases b with
      | true => rfl
      | false => exact drain_quiet l _ hc
    · rfl

/-- **When the client is gone nothing is sent any more**, whatever happens.  So up to the loss of the client
`in_order_partial` holds, and the list of sent messages stays as it is after it. -/
theorem lost_silent (H : Hooks) (s : St) (e : Event) (h : s.connected = false) :
    (step H s e).sent = s.sent ∧ (step H s e).connected = false := by
  by_cases h1 : ∃ m op, e = .response m op
  · obtain ⟨m, op, rfl⟩ := h1
    show (response H s m op).sent = s.sent ∧ (response H s m op).connected = false
    unfold response
    split
    · split
      · exact ⟨rfl, h⟩
      · split
        · exact ⟨rfl, h⟩
        · rename_i r _ _ q hq
          simp only
          have key : ∀ s' : St, s'.connected = false → s'.sent = s.sent → ∀ l d,
              (if q.dseq = [] then drain s' r q l else setRequest s' r { q with dseq := d }).sent = s.sent ∧
              (if q.dseq = [] then drain s' r q l else setRequest s' r { q with dseq := d }).connected = false := by
            intro s' hc hs l d
            split
            · exact ⟨(drain_quiet l s' hc).trans hs, (drain_hooks l s').2.2.2.trans hc⟩
            · exact ⟨hs, hc⟩
          have k := key { s with hooks := s.hooks ++ [⟨r, op, (H.after s.hooks.length op).state⟩] } h rfl [s.hooks.length]
            (q.dseq ++ [s.hooks.length])
          split <;> exact k
    · exact ⟨rfl, h⟩
  by_cases h2 : ∃ d x, e = .hook d x
  · obtain ⟨d, x, rfl⟩ := h2
    show (hook s d x).sent = s.sent ∧ (hook s d x).connected = false
    unfold hook
    split
    · simp only
      split
      · exact ⟨rfl, h⟩
      · split
        · refine ⟨?_, ?_⟩
          · rw [drain_quiet _ _ (by exact h)]
          · rw [(drain_hooks _ _).2.2.2]; exact h
        · exact ⟨rfl, h⟩
    · exact ⟨rfl, h⟩
  by_cases h3 : e = .lost
  · subst h3; exact ⟨rfl, rfl⟩
  have f := frame_step H s e (fun m op he => h1 ⟨m, op, he⟩) (fun d x he => h2 ⟨d, x, he⟩) h3
  exact ⟨f.quiet h, f.conn.trans h⟩

/-! ### Hooks that fail -/

theorem takeWhile_stop {α : Type} {p : α → Bool} {c : α} {b : List α} (h : p c = false) : ∀ a : List α,
    (a ++ c :: b).takeWhile p = a.takeWhile p
  | [] => by simp [h]
  | x :: a => by
    rw [List.cons_append, List.takeWhile_cons, List.takeWhile_cons, takeWhile_stop h a]

/-- A hook that has failed or fired stays as it is. -/
theorem step_kept (H : Hooks) (s : St) (e : Event) {d : Nat} {c : Called} (h : s.hooks[d]? = some c) (hw : c.state ≠ .waiting) :
    (step H s e).hooks[d]? = some c := by
  by_cases h1 : ∃ m op, e = .response m op
  · obtain ⟨m, op, rfl⟩ := h1
    show (response H s m op).hooks[d]? = _
    rw [response_hooks]
    split
    · split
      · exact h
      · split
        · rw [List.getElem?_append_left (lt_of_some h)]; exact h
        · exact h
    · exact h
  by_cases h2 : ∃ d x, e = .hook d x
  · obtain ⟨i, x, rfl⟩ := h2
    show (hook s i x).hooks[d]? = _
    rw [hook_hooks]
    split
    · rename_i r op e
      rw [List.getElem?_set]
      split
      · rename_i hi
        subst hi
        rw [e] at h
        cases h
        exact absurd rfl hw
      · exact h
    · exact h
  by_cases h3 : e = .lost
  · subst h3; exact h
  rw [(frame_step H s e (fun m op he => h1 ⟨m, op, he⟩) (fun d x he => h2 ⟨d, x, he⟩) h3).hooks]
  exact h

theorem run_kept (H : Hooks) : ∀ (es : List Event) (s : St) {d : Nat} {c : Called}, s.hooks[d]? = some c → c.state ≠ .waiting →
    (run H s es).hooks[d]? = some c
  | [], _, _, _, h, _ => h
  | e :: es, s, _, _, h, hw => run_kept H es (step H s e) (step_kept H s e h hw) hw

/-- **A hook that fails holds back all later responses of its request for ever**: whatever happens afterwards, only
responses that arrived before it are relayed.  So the full statement does not hold. -/
theorem failed_hook_blocks (H : Hooks) (u o : Bool) (es es' : List Event) (hl : Event.lost ∉ es ++ es')
    (hs : Sendable (run H (start u o) (es ++ es'))) (d r : Nat) (op : Obj) (q : Request)
    (hd : (run H (start u o) es).hooks[d]? = some ⟨r, op, .failed⟩)
    (hq : (run H (start u o) (es ++ es')).requests[r]? = some q) :
    relayed r (run H (start u o) (es ++ es')).sent =
      ((arrivals r ((run H (start u o) (es ++ es')).hooks.take d)).takeWhile hasFired).filterMap fun c =>
        (result c).map fun x => (q.id, x) := by
  rw [in_order_partial H u o _ hl hs r q hq]
  congr 1
  have hk : (run H (start u o) (es ++ es')).hooks[d]? = some ⟨r, op, .failed⟩ := by
    have : run H (start u o) (es ++ es') = run H (run H (start u o) es) es' := by simp [run]
    rw [this]
    exact run_kept H es' _ hd (by simp)
  generalize (run H (start u o) (es ++ es')).hooks = l at hk
  have hsplit : l = l.take d ++ ⟨r, op, .failed⟩ :: l.drop (d + 1) := by
    have := List.drop_eq_getElem_cons (lt_of_some hk)
    rw [(List.getElem?_eq_some_iff.mp hk).2] at this
    rw [← this, List.take_append_drop]
  have : arrivals r l = arrivals r (l.take d) ++ ⟨r, op, .failed⟩ :: arrivals r (l.drop (d + 1)) := by
    have e : arrivals r l = arrivals r (l.take d ++ ⟨r, op, .failed⟩ :: l.drop (d + 1)) := by rw [← hsplit]
    rw [e]
    simp [arrivals]
  rw [this]
  exact takeWhile_stop rfl _

/-! ### Examples -/

def look : Obj := .searchRequest 0x43 (.bytes []) (.int 2) (.int 0) (.int 0) (.int 0) (.int 0) (.oct .fPresent 0x87 [99, 110]) []
def found (b : UInt8) : Obj := .searchEntry 0x44 (.bytes [b]) []
def done : Obj := .result .searchResultDone 0x45 (.int 0) (.bytes []) (.bytes []) .none

/-- Hooks that forward requests at once and take their time for responses. -/
def slow : Hooks := ⟨fun _ op c => .now [] (some (op, c)), fun _ _ => .later⟩

/-- A search and its three responses. -/
def asked : List Event := [.up, .request (.int 7) look none, .response 1 (found 1), .response 1 (found 2), .response 1 done]

theorem look_encodes : encodes (.int 1) look = true := by decide +kernel
theorem found_encodes (b : UInt8) (h : b = 1 ∨ b = 2) : encodes (.int 7) (found b) = true := by
  rcases h with rfl | rfl <;> decide +kernel
theorem done_encodes : encodes (.int 7) done = true := by decide +kernel

theorem asked_state : run slow (start false false) asked =
    ⟨true, false, false, false, false, .settled, true, true, [], [⟨.int 7, [0, 1, 2], true, false⟩],
      [⟨0, found 1, .waiting⟩, ⟨0, found 2, .waiting⟩, ⟨0, done, .waiting⟩], [], 2, [(1, 0, look, none)], [], false⟩ := by
  have h := look_encodes
  unfold look at h
  simp [asked, slow, run, step, start, up, backlog, receive, forward, ask, replyAll, forwardit, response, look, found, done, needsAnswer,
    isResponse, isRequest, isFinal, List.lookup_cons, drain, setRequest, After.state, h]

/-- The hooks fire in the reverse order; the second one gives nothing. -/
theorem backwards_state : run slow (start false false) (asked ++ [.hook 2 (some (some done)), .hook 1 (some none), .hook 0 (some (some (found 2)))]) =
    ⟨true, false, false, false, false, .settled, true, true, [], [⟨.int 7, [], false, false⟩],
      [⟨0, found 1, .fired (some (found 2))⟩, ⟨0, found 2, .fired none⟩, ⟨0, done, .fired (some done)⟩], [], 2,
      [(1, 0, look, none)], [⟨0, true, .int 7, found 2⟩, ⟨0, true, .int 7, done⟩], false⟩ := by
  have h1 := found_encodes 2 (.inr rfl)
  have h2 := done_encodes
  have e : ∀ l, run slow (start false false) (asked ++ l) = run slow (run slow (start false false) asked) l := fun l => by simp [run]
  rw [e, asked_state]
  simp [run, step, hook, fires, drain, setRequest, reply, h1, h2]

/-- The hypotheses of `in_order_partial` and `all_relayed` can be met. -/
example : Event.lost ∉ asked ++ [.hook 2 (some (some done)), .hook 1 (some none), .hook 0 (some (some (found 2)))] ∧
    Sendable (run slow (start false false)
      (asked ++ [.hook 2 (some (some done)), .hook 1 (some none), .hook 0 (some (some (found 2)))])) ∧
    ∀ c ∈ arrivals 0 (run slow (start false false)
      (asked ++ [.hook 2 (some (some done)), .hook 1 (some none), .hook 0 (some (some (found 2)))])).hooks, hasFired c = true := by
  rw [backwards_state]
  refine ⟨by simp [asked], ?_, by simp [arrivals, hasFired]⟩
  intro c q x hc hq hx
  simp only [List.mem_cons, List.not_mem_nil, or_false] at hc
  rcases hc with rfl | rfl | rfl
  · simp at hq; subst hq
    simp [result] at hx; subst hx
    exact found_encodes 2 (.inr rfl)
  · simp [result] at hx
  · simp at hq; subst hq
    simp [result] at hx; subst hx
    exact done_encodes

/-- The first hook fails: nothing is ever sent, although the others fire. -/
example : (run slow (start false false) (asked ++ [.hook 0 none, .hook 1 (some (some (found 2))), .hook 2 (some (some done))])).sent = [] := by
  have e : ∀ l, run slow (start false false) (asked ++ l) = run slow (run slow (start false false) asked) l := fun l => by simp [run]
  rw [e, asked_state]
  simp [run, step, hook, fires, drain, setRequest]

/-- A result that cannot be encoded. -/
def broken : Obj := .result .searchResultDone 0x45 (.int 0) (.bytes []) .none .none

theorem broken_not : encodes (.int 7) broken = false := by decide +kernel

/-- **The same if a hook gives a result that cannot be encoded**: the later results are not sent. -/
theorem unencodable_blocks :
    (run slow (start false false) (asked ++ [.hook 0 (some (some broken)), .hook 1 (some (some (found 2))), .hook 2 (some (some done))])).sent
      = [] := by
  have e : ∀ l, run slow (start false false) (asked ++ l) = run slow (run slow (start false false) asked) l := fun l => by simp [run]
  rw [e, asked_state]
  have h := broken_not
  simp [run, step, hook, fires, drain, setRequest, reply, h]

end Verif.C45
