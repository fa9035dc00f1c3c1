import Verif.Props.C46
import Verif.Props.C48
/-
C71: a proxy forwards nothing for a client that is gone, and nothing over a link that is gone.

For `ProxyBase` (proxybase.py) without TLS this holds (`gone_partial`, `link_gone`).  With TLS towards the proxied server the
client may go while TLS is being set up: `_establishedTLS` does not look whether the client is still there, and forwards the
backlog (`tls_forwards`).

For `Proxy` (proxy.py) it holds if the link was up when the client went (`proxy_gone_partial`).  Otherwise the assertion in
`connectionLost` fails, and once the link comes up all the requests are forwarded (`proxy_forwards`); the link is then
never closed (`proxy_open`).
-/
namespace Verif.C71
open Verif.Ldap Verif.Server
open Verif.Client (Controls isResponse needsAnswer)

/-! ### `ProxyBase` -/
section
open Verif.ProxyBase Verif.Spec.ProxyBase

/-- Nothing can be forwarded any more. -/
structure Shut (s : St) : Prop where
  off : s.client = false ∨ s.upConnected = false
  link : s.link = .settled ∨ (s.link = .connecting ∧ s.useTls = false ∧ s.connected = false ∧ s.client = false)

theorem forwardit_shut {s : St} (h : s.client = false ∨ s.upConnected = false) (r : Nat) (x : Option (Obj × Controls)) : forwardit s r x = s := by
  unfold forwardit
  cases x with
  | none => rfl
  | some x =>
    have : (s.client && s.upConnected) = false := by rcases h with h | h <;> simp [h]
    simp [this]

/-- A step that keeps the links and what was written. -/
structure Keeps (s s' : St) : Prop where
  wrote : s'.wrote = s.wrote
  client : s'.client = s.client
  up : s'.upConnected = s.upConnected
  link : s'.link = s.link
  conn : s'.connected = s.connected
  useTls : s'.useTls = s.useTls

theorem Keeps.refl (s : St) : Keeps s s := ⟨rfl, rfl, rfl, rfl, rfl, rfl⟩
theorem Keeps.trans {a b c : St} (h : Keeps a b) (h' : Keeps b c) : Keeps a c :=
  ⟨h'.wrote.trans h.wrote, h'.client.trans h.client, h'.up.trans h.up, h'.link.trans h.link, h'.conn.trans h.conn, h'.useTls.trans h.useTls⟩

theorem Keeps.shut {s s' : St} (k : Keeps s s') (h : Shut s) : Shut s' :=
  ⟨by rw [k.client, k.up]; exact h.off, by rw [k.link, k.useTls, k.conn, k.client]; exact h.link⟩

theorem keeps_replyAll (r : Nat) (l : List (Option Obj)) (s : St) : Keeps s (replyAll s r l).1 := by
  obtain ⟨t, e, _⟩ := replyAll_rest r l s
  rw [e]
  exact ⟨rfl, rfl, rfl, rfl, rfl, rfl⟩

theorem keeps_reply (s : St) (r : Nat) (b : Bool) (x : Option Obj) : Keeps s (reply s r b x).1 := by
  obtain ⟨t, e, _⟩ := reply_rest s r b x
  rw [e]
  exact ⟨rfl, rfl, rfl, rfl, rfl, rfl⟩

theorem keeps_drain (r : Nat) (q : Request) (l : List Nat) (s : St) : Keeps s (drain s r q l) := by
  obtain ⟨_, _, _, e, _⟩ := drain_rest (q := q) (r := r) l s
  rw [e]
  exact ⟨rfl, rfl, rfl, rfl, rfl, rfl⟩

theorem keeps_ask (H : Hooks) {s : St} (h : Shut s) (r : Nat) (op : Obj) (c : Controls) : Keeps s (ask H s r op c) := by
  unfold ask
  split
  · rename_i l x _
    have k := keeps_replyAll r l s
    cases hr : replyAll s r l with
    | mk s' b =>
      rw [hr] at k
      cases b with
      | true => exact k
      | false =>
        simp only
        rw [forwardit_shut (k.shut h).off]
        exact k
  · exact .refl _
  · split
    · exact .refl _
    · exact ⟨rfl, rfl, rfl, rfl, rfl, rfl⟩

theorem keeps_forward (H : Hooks) {s : St} (h : Shut s) (r : Nat) (op : Obj) (c : Controls) : Keeps s (forward H s r op c) := by
  unfold forward
  split
  · exact keeps_ask H h r op c
  · exact ⟨rfl, rfl, rfl, rfl, rfl, rfl⟩

theorem keeps_startTLS (s : St) (r : Nat) : Keeps s (startTLS s r) := by
  unfold startTLS
  simp only
  split
  · split
    · exact keeps_reply ..
    · have k := keeps_reply s r false (some (extRespond 0 .none .none))
      cases hr : reply s r false (some (extRespond 0 .none .none)) with
      | mk s' b =>
        rw [hr] at k
        cases b with
        | true => exact k
        | false => exact k.trans ⟨rfl, rfl, rfl, rfl, rfl, rfl⟩
  · exact keeps_reply ..

theorem keeps_receive (H : Hooks) {s : St} (h : Shut s) (id : PyVal) (op : Obj) (c : Controls) : Keeps s (receive H s id op c) := by
  unfold receive
  simp only
  have k : ∀ b, Keeps s { s with requests := s.requests ++ [⟨id, [], false, false⟩], unbound := b } := fun b => ⟨rfl, rfl, rfl, rfl, rfl, rfl⟩
  split
  · split
    · exact (k s.unbound).trans (keeps_startTLS ..)
    · exact (k s.unbound).trans (keeps_forward H ((k s.unbound).shut h) ..)
  · exact (k true).trans (keeps_forward H ((k true).shut h) ..)
  · exact (k s.unbound).trans (keeps_forward H ((k s.unbound).shut h) ..)

theorem keeps_response (H : Hooks) (s : St) (m : Int) (op : Obj) : Keeps s (response H s m op) := by
  unfold response
  split
  · split
    · exact .refl _
    · split
      · exact .refl _
      · rename_i r _ _ q _
        simp only
        have k : Keeps s (if q.dseq = [] then drain { s with hooks := s.hooks ++ [⟨r, op, (H.after s.hooks.length op).state⟩] } r q [s.hooks.length]
            else setRequest { s with hooks := s.hooks ++ [⟨r, op, (H.after s.hooks.length op).state⟩] } r { q with dseq := q.dseq ++ [s.hooks.length] }) := by
          split
          · exact Keeps.trans (b := { s with hooks := s.hooks ++ [⟨r, op, (H.after s.hooks.length op).state⟩] }) ⟨rfl, rfl, rfl, rfl, rfl, rfl⟩ (keeps_drain ..)
          · exact ⟨rfl, rfl, rfl, rfl, rfl, rfl⟩
        split
        · exact k.trans ⟨rfl, rfl, rfl, rfl, rfl, rfl⟩
        · exact k
  · exact .refl _

theorem keeps_hook (s : St) (d : Nat) (x : Option (Option Obj)) : Keeps s (hook s d x) := by
  unfold hook
  split
  · simp only
    split
    · exact ⟨rfl, rfl, rfl, rfl, rfl, rfl⟩
    · rename_i r op _ _ q _
      split
      · exact Keeps.trans (b := { s with hooks := s.hooks.set d ⟨r, op, fires x⟩ }) ⟨rfl, rfl, rfl, rfl, rfl, rfl⟩ (keeps_drain ..)
      · exact ⟨rfl, rfl, rfl, rfl, rfl, rfl⟩
  · exact .refl _

theorem keeps_asked {s : St} (h : Shut s) (r : Nat) (l : List (Option Obj)) (x : Option (Option (Obj × Controls))) : Keeps s (asked s r l x) := by
  unfold asked
  split
  · exact .refl _
  · rename_i q _
    split
    · have k : Keeps s (replyAll (setRequest s r { q with asking := false }) r l).1 :=
        Keeps.trans (b := setRequest s r { q with asking := false }) ⟨rfl, rfl, rfl, rfl, rfl, rfl⟩ (keeps_replyAll ..)
      cases hr : replyAll (setRequest s r { q with asking := false }) r l with
      | mk s' b =>
        rw [hr] at k
        cases b with
        | true => exact k
        | false =>
          cases x with
          | none => exact k
          | some x =>
            simp only
            rw [forwardit_shut (k.shut h).off]
            exact k
    · exact .refl _

theorem refuseAll_keeps : ∀ (l : List (Nat × Obj × Controls)) (s : St), Keeps s (refuseAll s l).1
  | [], s => ⟨rfl, rfl, rfl, rfl, rfl, rfl⟩
  | q :: l, s => by
    rw [refuseAll.eq_def]
    simp only
    split
    · have k := keeps_reply s q.1 false (some (respond .bindResponse 0x41 52 .none))
      cases hr : reply s q.1 false (some (respond .bindResponse 0x41 52 .none)) with
      | mk s' b =>
        rw [hr] at k
        cases b with
        | true => exact k.trans ⟨rfl, rfl, rfl, rfl, rfl, rfl⟩
        | false => exact k.trans (refuseAll_keeps l s')
    · exact refuseAll_keeps l s

theorem shut_step (H : Hooks) {s : St} (h : Shut s) (e : Event) : Shut (step H s e) ∧ (step H s e).wrote = s.wrote := by
  have keep : ∀ s', Keeps s s' → Shut s' ∧ s'.wrote = s.wrote := fun s' k => ⟨k.shut h, k.wrote⟩
  cases e with
  | up =>
    show Shut (if _ then _ else _) ∧ (if _ then _ else _ : St).wrote = _
    split
    · rename_i hl
      rcases h.link with hk | ⟨_, h1, h2, h3⟩
      · rw [hk] at hl; cases hl
      · unfold up
        simp only [h1, h2, Bool.false_eq_true, if_false]
        refine ⟨⟨h.off, .inl rfl⟩, ?_⟩
        trivial
    · exact keep _ (.refl _)
  | tls =>
    have e : step H s .tls = s := if_neg (by rcases h.link with hk | ⟨hk, _⟩ <;> simp [hk])
    rw [e]
    exact keep _ (.refl _)
  | failed =>
    show Shut (if _ then _ else _) ∧ (if _ then _ else _ : St).wrote = _
    split
    · exact keep _ (.refl _)
    · have k := refuseAll_keeps s.queued { s with link := .settled }
      unfold failed
      cases hr : refuseAll { s with link := .settled } s.queued with
      | mk s' b =>
        rw [hr] at k
        have : Shut s' := ⟨by rw [k.client, k.up]; exact h.off, .inl k.link⟩
        cases b with
        | true => exact ⟨this, k.wrote⟩
        | false => exact ⟨⟨this.off, this.link⟩, k.wrote⟩
  | upLost =>
    show Shut (if _ then _ else _) ∧ (if _ then _ else _ : St).wrote = _
    split
    · exact ⟨⟨.inr rfl, h.link⟩, rfl⟩
    · exact keep _ (.refl _)
  | request id op c =>
    show Shut (if _ then _ else _) ∧ (if _ then _ else _ : St).wrote = _
    split
    · exact keep _ (keeps_receive H h id op c)
    · exact keep _ (.refl _)
  | asked r l x => exact keep _ (keeps_asked h r l x)
  | response m op => exact keep _ (keeps_response H s m op)
  | hook d x => exact keep _ (keeps_hook s d x)
  | lost =>
    refine ⟨⟨.inl rfl, ?_⟩, rfl⟩
    rcases h.link with hk | ⟨h0, h1, _, _⟩
    · exact .inl hk
    · exact .inr ⟨h0, h1, rfl, rfl⟩

theorem shut_run (H : Hooks) : ∀ (es : List Event) {s : St}, Shut s → (run H s es).wrote = s.wrote
  | [], _, _ => rfl
  | e :: es, s, h => by
    obtain ⟨a, b⟩ := shut_step H h e
    exact (shut_run H es a).trans b

/-- A step that keeps the links. -/
structure Links (s s' : St) : Prop where
  client : s'.client = s.client
  up : s'.upConnected = s.upConnected
  link : s'.link = s.link
  useTls : s'.useTls = s.useTls

theorem Links.refl (s : St) : Links s s := ⟨rfl, rfl, rfl, rfl⟩
theorem Links.trans {a b c : St} (h : Links a b) (h' : Links b c) : Links a c :=
  ⟨h'.client.trans h.client, h'.up.trans h.up, h'.link.trans h.link, h'.useTls.trans h.useTls⟩
theorem Keeps.links {s s' : St} (k : Keeps s s') : Links s s' := ⟨k.client, k.up, k.link, k.useTls⟩

theorem links_forwardit (s : St) (r : Nat) (x : Option (Obj × Controls)) : Links s (forwardit s r x) := by
  unfold forwardit
  repeat' split
  all_goals exact ⟨rfl, rfl, rfl, rfl⟩

theorem links_ask (H : Hooks) (s : St) (r : Nat) (op : Obj) (c : Controls) : Links s (ask H s r op c) := by
  unfold ask
  split
  · rename_i l x _
    have k := (keeps_replyAll r l s).links
    cases hr : replyAll s r l with
    | mk s' b =>
      rw [hr] at k
      cases b with
      | true => exact k
      | false => exact k.trans (links_forwardit ..)
  · exact .refl _
  · split
    · exact .refl _
    · exact ⟨rfl, rfl, rfl, rfl⟩

theorem links_forward (H : Hooks) (s : St) (r : Nat) (op : Obj) (c : Controls) : Links s (forward H s r op c) := by
  unfold forward
  split
  · exact links_ask ..
  · exact ⟨rfl, rfl, rfl, rfl⟩

theorem links_foldl (H : Hooks) : ∀ (l : List (Nat × Obj × Controls)) (s : St), Links s (l.foldl (fun s q => forward H s q.1 q.2.1 q.2.2) s)
  | [], s => .refl s
  | _ :: l, _ => (links_forward H _ _ _ _).trans (links_foldl H l _)

theorem links_receive (H : Hooks) (s : St) (id : PyVal) (op : Obj) (c : Controls) : Links s (receive H s id op c) := by
  unfold receive
  simp only
  have k : ∀ b, Links s { s with requests := s.requests ++ [⟨id, [], false, false⟩], unbound := b } := fun b => ⟨rfl, rfl, rfl, rfl⟩
  split
  · split
    · exact (k s.unbound).trans (keeps_startTLS ..).links
    · exact (k s.unbound).trans (links_forward ..)
  · exact (k true).trans (links_forward ..)
  · exact (k s.unbound).trans (links_forward ..)

theorem links_asked (s : St) (r : Nat) (l : List (Option Obj)) (x : Option (Option (Obj × Controls))) : Links s (asked s r l x) := by
  unfold asked
  split
  · exact .refl _
  · rename_i q _
    split
    · have k : Links s (replyAll (setRequest s r { q with asking := false }) r l).1 :=
        Links.trans (b := setRequest s r { q with asking := false }) ⟨rfl, rfl, rfl, rfl⟩ (keeps_replyAll ..).links
      cases hr : replyAll (setRequest s r { q with asking := false }) r l with
      | mk s' b =>
        rw [hr] at k
        cases b with
        | true => exact k
        | false =>
          cases x with
          | none => exact k
          | some x => exact k.trans (links_forwardit ..)
    · exact .refl _

/-- A link that is there is settled; without TLS it is never starting TLS. -/
structure Sound (u : Bool) (s : St) : Prop where
  up : s.upConnected = true → s.link = .settled
  client : s.client = true → s.link = .settled
  useTls : s.useTls = u
  noTls : u = false → s.link ≠ .startingTLS

theorem Links.sound {u : Bool} {s s' : St} (k : Links s s') (h : Sound u s) : Sound u s' :=
  ⟨by rw [k.up, k.link]; exact h.up, by rw [k.client, k.link]; exact h.client, by rw [k.useTls]; exact h.useTls, by rw [k.link]; exact h.noTls⟩

theorem Sound.step {H : Hooks} {u : Bool} {s : St} (h : Sound u s) (e : Event) : Sound u (step H s e) := by
  have bl : Sound u (ProxyBase.backlog H { s with link := .settled, client := true, upConnected := true }) :=
    (links_foldl H _ _).sound ⟨fun _ => rfl, fun _ => rfl, h.useTls, fun _ => by simp⟩
  cases e with
  | up =>
    show Sound u (if _ then _ else _)
    split
    · unfold ProxyBase.up
      split
      · rename_i hl ht
        refine ⟨fun hx => ?_, fun hx => ?_, h.useTls, fun hu => ?_⟩
        · have := h.up hx; rw [hl] at this; cases this
        · have := h.client hx; rw [hl] at this; cases this
        · rw [h.useTls, hu] at ht; cases ht
      · split
        · exact bl
        · exact ⟨fun _ => rfl, fun _ => rfl, h.useTls, fun _ => by simp⟩
    · exact h
  | tls =>
    show Sound u (if _ then _ else _)
    split
    · exact bl
    · exact h
  | failed =>
    show Sound u (if _ then _ else _)
    split
    · exact h
    · have k := (refuseAll_keeps s.queued { s with link := .settled }).links
      have h' : Sound u { s with link := .settled } := ⟨fun _ => rfl, fun _ => rfl, h.useTls, fun _ => by simp⟩
      unfold failed
      cases hr : refuseAll { s with link := .settled } s.queued with
      | mk s' b =>
        rw [hr] at k
        have := k.sound h'
        cases b with
        | true => exact this
        | false => exact ⟨this.up, this.client, this.useTls, this.noTls⟩
  | upLost =>
    show Sound u (if _ then _ else _)
    split
    · exact ⟨by simp, h.client, h.useTls, h.noTls⟩
    · exact h
  | request id op c =>
    show Sound u (if _ then _ else _)
    split
    · exact (links_receive H s id op c).sound h
    · exact h
  | asked r l x => exact (links_asked s r l x).sound h
  | response m op => exact (keeps_response H s m op).links.sound h
  | hook d x => exact (keeps_hook s d x).links.sound h
  | lost => exact ⟨h.up, by simp [ProxyBase.step], h.useTls, h.noTls⟩

theorem sound_run {H : Hooks} {u : Bool} : ∀ (es : List Event) {s : St}, Sound u s → Sound u (run H s es)
  | [], _, h => h
  | e :: es, _, h => sound_run es (h.step e)

theorem sound_start (u o : Bool) : Sound u (start u o) := ⟨by simp [start], by simp [start], rfl, fun _ => by simp [start]⟩

/-- **Nothing is forwarded once the client is gone**, if there is no TLS towards the proxied server or the connection was
set up before, whatever happens afterwards. -/
theorem gone_partial (H : Hooks) (u o : Bool) (es es' : List Event) (h : u = false ∨ (run H (start u o) es).link = .settled) :
    (run H (start u o) (es ++ .lost :: es')).wrote = (run H (start u o) es).wrote := by
  have e : run H (start u o) (es ++ .lost :: es') = run H (step H (run H (start u o) es) .lost) es' := by simp [run]
  have hs := sound_run (H := H) es (sound_start u o)
  rw [e, shut_run H es' ?_]
  · rfl
  · refine ⟨.inl rfl, ?_⟩
    show (run H (start u o) es).link = .settled ∨ ((run H (start u o) es).link = .connecting ∧ (run H (start u o) es).useTls = false ∧ false = false ∧ false = false)
    rcases h with rfl | h
    · cases hl : (run H (start false o) es).link with
      | settled => exact .inl rfl
      | connecting => exact .inr ⟨rfl, hs.useTls, rfl, rfl⟩
      | startingTLS => exact absurd hl (hs.noTls rfl)
    · exact .inl h

/-- **Nothing is forwarded once the link is gone.** -/
theorem link_gone (H : Hooks) (u o : Bool) (es es' : List Event) (h : (run H (start u o) es).upConnected = true) :
    (run H (start u o) (es ++ .upLost :: es')).wrote = (run H (start u o) es).wrote := by
  have e : run H (start u o) (es ++ .upLost :: es') = run H (step H (run H (start u o) es) .upLost) es' := by simp [run]
  have hs := sound_run (H := H) es (sound_start u o)
  have e' : step H (run H (start u o) es) .upLost = { run H (start u o) es with upConnected := false, onwire := [] } := if_pos h
  rw [e, e']
  exact shut_run H es' ⟨.inr rfl, .inl (hs.up h)⟩

/-- **With TLS towards the proxied server** the client may be gone before TLS is on; its requests are forwarded all the same. -/
theorem tls_forwards :
    let es := [.request (.int 7) (C46.delete 1) none, .up, .lost]
    (run C46.plain (start true false) es).connected = false ∧ (run C46.plain (start true false) es).wrote = [] ∧
    ((run C46.plain (start true false) (es ++ [.tls])).wrote.map fun w => w.2.2.1) = [C46.delete 1] := by
  have h := C46.delete_encodes 1 1 (by decide)
  unfold C46.delete at h
  refine ⟨?_, ?_, ?_⟩ <;>
  simp [C46.plain, C46.delete, run, step, start, up, tls, backlog, receive, forward, ask, replyAll, forwardit, needsAnswer, isRequest, h]

/-- The hypotheses of `gone_partial` and `link_gone` can be met, with something forwarded before and requests waiting. -/
example : (run C46.plain (start true false) [.request (.int 7) (C46.delete 1) none, .up, .tls]).link = .settled ∧
    (run C46.plain (start true false) [.request (.int 7) (C46.delete 1) none, .up, .tls]).upConnected = true ∧
    (run C46.plain (start true false) [.request (.int 7) (C46.delete 1) none, .up, .tls]).wrote ≠ [] := by
  have h := C46.delete_encodes 1 1 (by decide)
  unfold C46.delete at h
  refine ⟨?_, ?_, ?_⟩ <;>
  simp [C46.plain, C46.delete, run, step, start, up, tls, backlog, receive, forward, ask, replyAll, forwardit, needsAnswer, isRequest, h]

end

/-! ### `Proxy` -/
section
open Verif.Proxy Verif.Spec.Proxy

/-- The client is gone and its link was up before. -/
structure Gone (c : Nat) (w : World) : Prop where
  client : (w.conns c).client = false
  settled : (w.conns c).settled = true
  opened : (w.conns c).opened = true
  dead : (w.conns c).alive = false

theorem clientQueue_silent {c : Nat} {w : World} (h : (w.conns c).client = false) (j r : Nat) (op : Obj) :
    (clientQueue w j r op).conns c = w.conns c := by
  by_cases hj : c = j
  · unfold clientQueue
    rw [← hj]
    simp only [h, Bool.false_and]
    rfl
  · exact clientQueue_other w r op hj

theorem foldl_silent {c : Nat} : ∀ (l : List (Nat × Nat × Obj × Controls)) {w : World}, (w.conns c).client = false →
    (l.foldl (fun w q => clientQueue w q.1 q.2.1 q.2.2.1) w).conns c = w.conns c
  | [], _, _ => rfl
  | q :: l, w, h => by
    have e := clientQueue_silent h q.1 q.2.1 q.2.2.1
    simp only [List.foldl_cons]
    rw [foldl_silent l (by rw [e]; exact h), e]

theorem Gone.step {c : Nat} {w : World} (h : Gone c w) (e : Event) :
    Gone c (Proxy.step w e) ∧ ((Proxy.step w e).conns c).wrote = (w.conns c).wrote := by
  have keep : ∀ v : World, v.conns c = w.conns c → Gone c v ∧ (v.conns c).wrote = (w.conns c).wrote := by
    intro v hv
    exact ⟨⟨by rw [hv]; exact h.client, by rw [hv]; exact h.settled, by rw [hv]; exact h.opened, by rw [hv]; exact h.dead⟩, by rw [hv]⟩
  by_cases hx : ∃ j, e = .up j
  · obtain ⟨j, rfl⟩ := hx
    show Gone c (if _ then _ else _) ∧ ((if _ then _ else _ : World).conns c).wrote = _
    split
    · rename_i hc
      have hj : c ≠ j := by
        rintro rfl
        rw [h.settled] at hc
        simp at hc
      refine keep _ ?_
      unfold up
      rw [foldl_silent _ (by simp only [set_other _ _ hj]; exact h.client)]
      exact set_other _ _ hj
    · exact keep _ rfl
  · have hx : ∀ j, e ≠ .up j := fun j ej => hx ⟨j, ej⟩
    by_cases ha : C48.about e = c
    · cases e with
      | up j => exact absurd rfl (hx j)
      | opened j =>
        obtain rfl : j = c := ha
        have e : Proxy.step w (.opened j) = w := if_pos h.opened
        exact keep _ (by rw [e])
      | failed j =>
        obtain rfl : j = c := ha
        have e : Proxy.step w (.failed j) = w := if_neg (by rw [h.settled]; simp)
        exact keep _ (by rw [e])
      | request j id op k =>
        obtain rfl : j = c := ha
        have e : Proxy.step w (.request j id op k) = w := if_neg (by rw [h.dead]; simp)
        exact keep _ (by rw [e])
      | lost j =>
        obtain rfl : j = c := ha
        have e : Proxy.step w (.lost j) = w := if_neg (by rw [h.dead]; simp)
        exact keep _ (by rw [e])
      | upLost j =>
        obtain rfl : j = c := ha
        show Gone j (if _ then _ else _) ∧ ((if _ then _ else _ : World).conns j).wrote = _
        split
        · exact ⟨⟨by simpa [PConn.down] using h.client, by simpa [PConn.down] using h.settled, by simpa [PConn.down] using h.opened, by simpa [PConn.down] using h.dead⟩, by simp [PConn.down]⟩
        · exact keep _ rfl
      | response j m op =>
        obtain rfl : j = c := ha
        show Gone j (if _ then _ else _) ∧ ((if _ then _ else _ : World).conns j).wrote = _
        split
        · have r : ∀ x : PConn, (response x m op).client = x.client ∧ (response x m op).settled = x.settled ∧ (response x m op).opened = x.opened ∧ (response x m op).alive = x.alive := by
            intro x
            unfold response
            split
            · split
              · exact ⟨rfl, rfl, rfl, rfl⟩
              · split
                · exact ⟨rfl, rfl, rfl, rfl⟩
                · split
                  · exact ⟨rfl, rfl, rfl, rfl⟩
                  · unfold gotResponse
                    split <;> exact ⟨rfl, rfl, rfl, rfl⟩
            · exact ⟨rfl, rfl, rfl, rfl⟩
          obtain ⟨r1, r2, r3, r4⟩ := r (w.conns j)
          exact ⟨⟨by rw [set_self, r1]; exact h.client, by rw [set_self, r2]; exact h.settled, by rw [set_self, r3]; exact h.opened, by rw [set_self, r4]; exact h.dead⟩,
            by rw [set_self]; exact (C48.response_keeps _ _ _).1⟩
        · exact keep _ rfl
    · exact keep _ (C48.step_other w c e ha hx).1

theorem gone_foldl {c : Nat} : ∀ (es : List Event) {w : World}, Gone c w → ((es.foldl step w).conns c).wrote = (w.conns c).wrote
  | [], _, _ => rfl
  | e :: es, w, h => by
    obtain ⟨a, b⟩ := h.step e
    exact (gone_foldl es a).trans b

/-- **Nothing is forwarded once the client is gone**, if its link was up when it went, whatever happens afterwards. -/
theorem proxy_gone_partial (es es' : List Event) (c : Nat) (hthere : .opened c ∈ es) (hnot : .lost c ∉ es)
    (hup : ((run es).conns c).client = true) :
    ((run (es ++ .lost c :: es')).conns c).wrote = ((run es).conns c).wrote := by
  have hi := inv_run es
  have ho := C48.opened_of_mem es c hthere
  have ha : ((run es).conns c).alive = true := by
    rw [hi.alive c]
    rw [hi.opened c] at ho
    have h1 := C48.phase_not_gone es c hnot
    cases hp : phase c es with
    | before => rw [hp] at ho; simp at ho
    | there => rfl
    | gone => exact absurd hp h1
  have e : run (es ++ .lost c :: es') = es'.foldl step (step (run es) (.lost c)) := by simp [run]
  have e' : step (run es) (.lost c) = lost (run es) c := if_pos ha
  have hL : Gone c (lost (run es) c) ∧ ((lost (run es) c).conns c).wrote = ((run es).conns c).wrote := by
    unfold lost
    simp only [hup, if_true]
    exact ⟨⟨by simp [World.set], by simp only [set_self]; exact hi.linked c hup, by simp only [set_self]; exact ho, by simp [World.set]⟩, by simp [World.set]⟩
  rw [e, e', gone_foldl es' hL.1]
  exact hL.2

/-- **A client that goes before its link is up**: all its requests are forwarded when the link comes up. -/
theorem proxy_forwards (es : List Event) (c : Nat) (hthere : .opened c ∈ es) (hother : ∀ j, .up j ∉ es) (hfail : .failed c ∉ es)
    (hnot : .lost c ∉ es) (hfit : Fits c (es.length + 2) es) :
    forwarded ((run (es ++ [.lost c, .up c])).conns c) = numbered (received c es) ∧
    ((run (es ++ [.lost c, .up c])).conns c).upConnected = true := by
  have hi := inv_run es
  have ho := C48.opened_of_mem es c hthere
  have hE : C48.Early c es (run es) := by
    have := C48.early_foldl c es inv_initial (.inl rfl : C48.Early c [] World.initial) (hother c) hfail hnot
      (fun a j b hab => absurd (by rw [hab]; simp) (hother j))
    simpa [run] using this
  have hw : C48.Waits c es (run es) := hE.resolve_left fun hb => by
    rw [hi.opened c, hb] at ho
    simp at ho
  have e1 : step (run es) (.lost c) = (run es).set c { (run es).conns c with alive := false } := by
    show (if _ then _ else _) = _
    rw [if_pos hw.there]
    unfold lost
    simp only [hw.client]
    rfl
  generalize hv : (run es).set c { (run es).conns c with alive := false } = v at e1
  have v1 : v.conns c = { (run es).conns c with alive := false } := by rw [← hv]; simp [World.set]
  have v2 : v.waiting = (run es).waiting := by rw [← hv]; rfl
  have v3 : v.nextId = (run es).nextId := by rw [← hv]; rfl
  have e2 : step v (.up c) = up v c := if_pos (by rw [v1]; simp [hw.opened, hw.settled])
  have e : run (es ++ [.lost c, .up c]) = up v c := by
    rw [← e2, ← e1]
    simp [run]
  have hl := C48.low_run es
  have l1 := hl.low
  have l2 := hl.pos
  rw [e]
  generalize hu : ({ v.set c { v.conns c with settled := true, client := true, upConnected := true } with waiting := [] } : World) = u
  have u1 : u.conns c = { (run es).conns c with alive := false, settled := true, client := true, upConnected := true } := by
    rw [← hu]; simp [World.set, v1]
  have u3 : u.nextId = (run es).nextId := by rw [← hu, ← v3]; rfl
  have eu : up v c = (run es).waiting.foldl (fun w q => clientQueue w q.1 q.2.1 q.2.2.1) u := by
    unfold up
    rw [hu, v2]
  rw [eu]
  refine ⟨?_, ?_⟩
  · rw [C48.foldl_forwards c (es.length + 2) _ _ (by rw [u1]) (by rw [u1]) (by rw [u3]; exact l2) (by rw [u3]; omega)]
    · rw [hw.queue, u1]
      simp [forwarded, hw.nothing]
    · intro q hq hc
      obtain ⟨id, a, b⟩ := hw.kinds q hq hc
      exact ⟨b, hfit id _ q.2.2.2 a⟩
  · rw [(C48.foldl_link c _ _).2, u1]

theorem foldl_closing (c : Nat) : ∀ (l : List (Nat × Nat × Obj × Controls)) (w : World),
    ((l.foldl (fun w q => clientQueue w q.1 q.2.1 q.2.2.1) w).conns c).closing = (w.conns c).closing
  | [], w => rfl
  | q :: l, w => by
    have h : ((clientQueue w q.1 q.2.1 q.2.2.1).conns c).closing = (w.conns c).closing := by
      by_cases hj : c = q.1
      · rw [hj]
        obtain ⟨o, x, e⟩ := clientQueue_self w q.1 q.2.1 q.2.2.1
        rw [e]
      · rw [clientQueue_other w _ _ hj]
    exact (foldl_closing c l _).trans h

/-- Only the loss of a client whose link is up ends the link. -/
theorem closing_step {c : Nat} {w : World} {e : Event} (h : (w.conns c).closing = false)
    (he : e ≠ .lost c ∨ (w.conns c).alive = false ∨ (w.conns c).client = false) : ((step w e).conns c).closing = false := by
  by_cases hx : ∃ j, e = .up j
  · obtain ⟨j, rfl⟩ := hx
    show ((if _ then _ else _ : World).conns c).closing = _
    split
    · unfold up
      rw [foldl_closing]
      by_cases hj : c = j
      · subst hj; simpa [World.set] using h
      · simp only [set_other _ _ hj]; exact h
    · exact h
  · have hx : ∀ j, e ≠ .up j := fun j ej => hx ⟨j, ej⟩
    by_cases ha : C48.about e = c
    · cases e with
      | up j => exact absurd rfl (hx j)
      | opened j =>
        obtain rfl : j = c := ha
        show ((if _ then _ else _ : World).conns j).closing = _
        split
        · exact h
        · simp [made, PConn.fresh]
      | failed j =>
        obtain rfl : j = c := ha
        show ((if _ then _ else _ : World).conns j).closing = _
        split
        · simpa using h
        · exact h
      | upLost j =>
        obtain rfl : j = c := ha
        show ((if _ then _ else _ : World).conns j).closing = _
        split
        · simpa [PConn.down] using h
        · exact h
      | response j m op =>
        obtain rfl : j = c := ha
        show ((if _ then _ else _ : World).conns j).closing = _
        split
        · rw [set_self]
          unfold response
          split
          · split
            · exact h
            · split
              · exact h
              · split
                · exact h
                · unfold gotResponse
                  split <;> exact h
          · exact h
        · exact h
      | request j id op k =>
        obtain rfl : j = c := ha
        show ((if _ then _ else _ : World).conns j).closing = _
        split
        · unfold receive whenConnected
          simp only
          split
          · obtain ⟨o, x, e⟩ := clientQueue_self (w.set j { w.conns j with requests := (w.conns j).requests ++ [id], unbound := unbinds op (w.conns j).unbound }) j (w.conns j).requests.length op
            rw [e]
            simpa using h
          · simpa [World.set] using h
        · exact h
      | lost j =>
        obtain rfl : j = c := ha
        show ((if _ then _ else _ : World).conns j).closing = _
        rcases he with he | he | he
        · exact absurd rfl he
        · rw [if_neg (by rw [he]; simp)]; exact h
        · split
          · unfold lost
            simp only [he]
            simpa [World.set] using h
          · exact h
    · rw [(C48.step_other w c e ha hx).1]; exact h

/-- **The link of such a client is never closed by the proxy**, whatever happens afterwards. -/
theorem proxy_open (es es' : List Event) (c : Nat) (hup : .up c ∉ es) (hnot : .lost c ∉ es) (hthere : .opened c ∈ es) :
    ((run (es ++ .lost c :: es')).conns c).closing = false := by
  have h0 : ∀ (l pre : List Event), .lost c ∉ l → ((run pre).conns c).closing = false → ((run (pre ++ l)).conns c).closing = false := by
    intro l
    induction l with
    | nil => intro pre _ h; simpa using h
    | cons e l ih =>
      intro pre hl h
      have := ih (pre ++ [e]) (fun x => hl (by simp [x])) (by
        have e1 : run (pre ++ [e]) = step (run pre) e := by simp [run]
        rw [e1]
        exact closing_step h (.inl fun x => hl (by simp [x])))
      simpa using this
  have h1 := h0 es [] hnot rfl
  have ho := C48.opened_of_mem es c hthere
  have hi := inv_run es
  have hp : phase c es = .there := by
    have hg := C48.phase_not_gone es c hnot
    rw [hi.opened c] at ho
    cases hp : phase c es with
    | before => rw [hp] at ho; simp at ho
    | there => rfl
    | gone => exact absurd hp hg
  have h2 : ((run (es ++ [.lost c])).conns c).closing = false := by
    have e1 : run (es ++ [.lost c]) = step (run es) (.lost c) := by simp [run]
    rw [e1]
    exact closing_step h1 (.inr (.inr (C48.not_up es c hup).1))
  have hp2 : phase c (es ++ [.lost c]) = .gone := by rw [phase_snoc, hp]; simp [next]
  have h3 : ∀ (l pre : List Event), phase c pre = .gone → ((run pre).conns c).closing = false → ((run (pre ++ l)).conns c).closing = false := by
    intro l
    induction l with
    | nil => intro pre _ h; simpa using h
    | cons e l ih =>
      intro pre hg h
      have := ih (pre ++ [e]) (by rw [phase_snoc, hg]; cases e <;> rfl) (by
        have e1 : run (pre ++ [e]) = step (run pre) e := by simp [run]
        rw [e1]
        exact closing_step h (.inr (.inl (by rw [(inv_run pre).alive c, hg]; rfl))))
      simpa using this
  have := h3 es' _ hp2 h2
  simpa using this

/-- The link is gone. -/
structure Cut (c : Nat) (w : World) : Prop where
  down : (w.conns c).upConnected = false
  settled : (w.conns c).settled = true
  opened : (w.conns c).opened = true
  idle : (w.conns c).onwire = []

theorem clientQueue_cut {c : Nat} {w : World} (h : (w.conns c).upConnected = false) (j r : Nat) (op : Obj) :
    (clientQueue w j r op).conns c = w.conns c := by
  by_cases hj : c = j
  · unfold clientQueue
    rw [← hj]
    simp only [h, Bool.and_false]
    rfl
  · exact clientQueue_other w r op hj

theorem foldl_cut {c : Nat} : ∀ (l : List (Nat × Nat × Obj × Controls)) {w : World}, (w.conns c).upConnected = false →
    (l.foldl (fun w q => clientQueue w q.1 q.2.1 q.2.2.1) w).conns c = w.conns c
  | [], _, _ => rfl
  | q :: l, w, h => by
    have e := clientQueue_cut h q.1 q.2.1 q.2.2.1
    simp only [List.foldl_cons]
    rw [foldl_cut l (by rw [e]; exact h), e]

theorem Cut.step {c : Nat} {w : World} (h : Cut c w) (e : Event) :
    Cut c (Proxy.step w e) ∧ ((Proxy.step w e).conns c).wrote = (w.conns c).wrote ∧ ((Proxy.step w e).conns c).sent = (w.conns c).sent := by
  have keep : ∀ v : World, v.conns c = w.conns c → Cut c v ∧ (v.conns c).wrote = (w.conns c).wrote ∧ (v.conns c).sent = (w.conns c).sent := by
    intro v hv
    exact ⟨⟨by rw [hv]; exact h.down, by rw [hv]; exact h.settled, by rw [hv]; exact h.opened, by rw [hv]; exact h.idle⟩, by rw [hv], by rw [hv]⟩
  by_cases hx : ∃ j, e = .up j
  · obtain ⟨j, rfl⟩ := hx
    show Cut c (if _ then _ else _) ∧ ((if _ then _ else _ : World).conns c).wrote = _ ∧ ((if _ then _ else _ : World).conns c).sent = _
    split
    · rename_i hc
      have hj : c ≠ j := by
        rintro rfl
        rw [h.settled] at hc
        simp at hc
      refine keep _ ?_
      unfold up
      rw [foldl_cut _ (by simp only [set_other _ _ hj]; exact h.down)]
      exact set_other _ _ hj
    · exact keep _ rfl
  · have hx : ∀ j, e ≠ .up j := fun j ej => hx ⟨j, ej⟩
    by_cases ha : C48.about e = c
    · cases e with
      | up j => exact absurd rfl (hx j)
      | opened j =>
        obtain rfl : j = c := ha
        have e : Proxy.step w (.opened j) = w := if_pos h.opened
        exact keep _ (by rw [e])
      | failed j =>
        obtain rfl : j = c := ha
        have e : Proxy.step w (.failed j) = w := if_neg (by rw [h.settled]; simp)
        exact keep _ (by rw [e])
      | upLost j =>
        obtain rfl : j = c := ha
        have e : Proxy.step w (.upLost j) = w := if_neg (by rw [h.down]; simp)
        exact keep _ (by rw [e])
      | response j m op =>
        obtain rfl : j = c := ha
        have e : Proxy.step w (.response j m op) = w := if_neg (by rw [h.down]; simp)
        exact keep _ (by rw [e])
      | lost j =>
        obtain rfl : j = c := ha
        show Cut j (if _ then _ else _) ∧ ((if _ then _ else _ : World).conns j).wrote = _ ∧ ((if _ then _ else _ : World).conns j).sent = _
        split
        · unfold lost
          simp only
          split
          · exact ⟨⟨by simpa [World.set] using h.down, by simpa [World.set] using h.settled, by simpa [World.set] using h.opened,
              by simpa [World.set] using h.idle⟩, by simp [World.set], by simp [World.set]⟩
          · exact ⟨⟨by simpa [World.set] using h.down, by simpa [World.set] using h.settled, by simpa [World.set] using h.opened,
              by simpa [World.set] using h.idle⟩, by simp [World.set], by simp [World.set]⟩
        · exact keep _ rfl
      | request j id op k =>
        obtain rfl : j = c := ha
        show Cut j (if _ then _ else _) ∧ ((if _ then _ else _ : World).conns j).wrote = _ ∧ ((if _ then _ else _ : World).conns j).sent = _
        split
        · unfold receive
          simp only
          generalize hv : w.set j { w.conns j with requests := (w.conns j).requests ++ [id], unbound := unbinds op (w.conns j).unbound } = v
          have hc : v.conns j = { w.conns j with requests := (w.conns j).requests ++ [id], unbound := unbinds op (w.conns j).unbound } := by
            rw [← hv, set_self]
          have hk : (whenConnected v j (w.conns j).requests.length op k).conns j = v.conns j := by
            unfold whenConnected
            split
            · exact clientQueue_cut (by rw [hc]; exact h.down) _ _ _
            · rfl
          rw [hk, hc]
          exact ⟨⟨by rw [hk, hc]; exact h.down, by rw [hk, hc]; exact h.settled, by rw [hk, hc]; exact h.opened, by rw [hk, hc]; exact h.idle⟩, rfl, rfl⟩
        · exact keep _ rfl
    · exact keep _ (C48.step_other w c e ha hx).1

theorem cut_foldl {c : Nat} : ∀ (es : List Event) {w : World}, Cut c w → ((es.foldl step w).conns c).wrote = (w.conns c).wrote ∧
    ((es.foldl step w).conns c).sent = (w.conns c).sent ∧ ((es.foldl step w).conns c).onwire = []
  | [], _, h => ⟨rfl, rfl, h.idle⟩
  | e :: es, w, h => by
    obtain ⟨a, b, b'⟩ := h.step e
    obtain ⟨d, d', d''⟩ := cut_foldl es a
    exact ⟨d.trans b, d'.trans b', d''⟩

/-- **Once the link is gone** nothing is forwarded, nothing is sent to the client, and no request waits for an answer,
whatever happens afterwards. -/
theorem proxy_link_gone (es es' : List Event) (c : Nat) (hup : ((run es).conns c).upConnected = true) :
    ((run (es ++ .upLost c :: es')).conns c).wrote = ((run es).conns c).wrote ∧
    ((run (es ++ .upLost c :: es')).conns c).sent = ((run es).conns c).sent ∧
    ((run (es ++ .upLost c :: es')).conns c).onwire = [] := by
  have hi := inv_run es
  have ho : ((run es).conns c).opened = true := by
    cases h : ((run es).conns c).opened with
    | true => rfl
    | false => rw [hi.closed c h] at hup; cases hup
  have e : run (es ++ .upLost c :: es') = es'.foldl step (step (run es) (.upLost c)) := by simp [run]
  have e' : step (run es) (.upLost c) = (run es).set c ((run es).conns c).down := if_pos hup
  have hc : Cut c ((run es).set c ((run es).conns c).down) :=
    ⟨by simp [PConn.down], by simp only [set_self, PConn.down]; exact hi.linked' c hup, by simp only [set_self, PConn.down]; exact ho, by simp [PConn.down]⟩
  have := cut_foldl es' hc
  rw [e, e']
  simpa [PConn.down] using this

/-- **The link is closed with the client**, if it was up. -/
theorem proxy_closes (es : List Event) (c : Nat) (hthere : .opened c ∈ es) (hnot : .lost c ∉ es)
    (hup : ((run es).conns c).client = true) (hlink : ((run es).conns c).upConnected = true) :
    ((run (es ++ [.lost c])).conns c).closing = true := by
  have hi := inv_run es
  have ho := C48.opened_of_mem es c hthere
  have ha : ((run es).conns c).alive = true := by
    rw [hi.alive c]
    rw [hi.opened c] at ho
    have h1 := C48.phase_not_gone es c hnot
    cases hp : phase c es with
    | before => rw [hp] at ho; simp at ho
    | there => rfl
    | gone => exact absurd hp h1
  have e : run (es ++ [.lost c]) = lost (run es) c := by
    have : step (run es) (.lost c) = lost (run es) c := if_pos ha
    rw [← this]
    simp [run]
  rw [e]
  unfold lost
  simp [hup, hlink, World.set]

/-- The hypotheses of `proxy_forwards` and `proxy_open` can be met. -/
example : .opened 0 ∈ C48.early ∧ (∀ j, .up j ∉ C48.early) ∧ .failed 0 ∉ C48.early ∧ .lost 0 ∉ C48.early ∧
    Fits 0 (C48.early.length + 2) C48.early ∧ numbered (received 0 C48.early) = [(0, C48.delete 1)] := by
  refine ⟨by simp [C48.early], by simp [C48.early], by simp [C48.early], by simp [C48.early], ?_, ?_⟩
  · intro id op k h m h1 h2
    simp only [C48.early, List.mem_cons, reduceCtorEq, Event.request.injEq, List.not_mem_nil, or_false, false_or] at h
    simp only [C48.early, List.length_cons, List.length_nil] at h2
    rcases h with ⟨_, _, rfl, _⟩ | ⟨h, _⟩
    · exact C48.delete_encodes 1 m (by omega)
    · cases h
  · simp [C48.early, received, receivedFrom, gain, next, isRequest, C48.delete, numbered, List.zipIdx]

/-- The hypotheses of `proxy_gone_partial`, `proxy_closes` and `proxy_link_gone` can be met. -/
example : .opened 0 ∈ C48.fine ++ [.up 0] ∧ .lost 0 ∉ C48.fine ++ [.up 0] ∧ ((run (C48.fine ++ [.up 0])).conns 0).client = true ∧
    ((run (C48.fine ++ [.up 0])).conns 0).upConnected = true := by
  refine ⟨by simp [C48.fine], by simp [C48.fine], ?_, ?_⟩ <;>
  simp [C48.fine, run, step, made, receive, whenConnected, up, clientQueue, World.set, World.initial, PConn.fresh, isRequest, C48.delete, needsAnswer]

end

end Verif.C71
