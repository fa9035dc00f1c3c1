import Verif.Lemmas.Exchange
import Verif.Spec.ClientTree
/-
What is exchanged is determined by what the server does with the request.
-/
namespace Verif.Session
open Verif.Ldap Verif.Spec Verif.Server

variable {env : Env} {luck : Luck} {app : Client.App} {fuel c : Nat} {w : Client.World} {st : State} {op : Op}

/-- The client has written the request. -/
theorem written (hconn : (w.conns c).connected = true) (hfree : (w.conns c).onwire.lookup w.nextId = none)
    (hna : Client.needsAnswer op.build = some true) {p : Client.Pending} {q : Obj} {out : Bytes}
    (hlog : (Client.call app fuel w (.send c op.build none)).log = w.log ++ [.made c w.nextId, .sent c w.nextId p q, .written c out]) :
    toWire (.message (.int w.nextId) op.build none) = .ok out := by
  have hc : Client.call app fuel w (.send c op.build none) = Client.sendNew w c op.build none false false .plain := by
    cases fuel <;> simp only [Client.call]
  rw [hc] at hlog
  cases hw : toWire (.message (.int w.nextId) op.build none) with
  | error e =>
    simp only [Client.sendNew, Client.sendOn, Client.prepare, hconn, if_true, Client.World.note, hfree, hna, Client.register,
      Client.World.setConn, Client.write, hw] at hlog
    simp at hlog
  | ok b =>
    simp only [Client.sendNew, Client.sendOn, Client.prepare, hconn, if_true, Client.World.note, hfree, hna, Client.register,
      Client.World.setConn, Client.write, hw] at hlog
    simp at hlog
    rw [hlog.2]

theorem served (hwf : op.WF) {out : Bytes} (hout : toWire (.message (.int w.nextId) op.build none) = .ok out) {segs : List Bytes}
    (hsegs : segs.flatten = out) (hdead : (Conn.feed (serverHandle env luck) (Conn.fresh (st, [])) segs).dead = false) :
    ∃ s, serve env luck st (.message (.int w.nextId) (received op) none) = some s ∧
      (Conn.feed (serverHandle env luck) (Conn.fresh (st, [])) segs).st = (s.state, s.sent) := by
  have hcar : Conn.Carries out [.message (.int w.nextId) (received op) none] := by
    have := Conn.carries_wires [⟨w.nextId, op, none⟩] (fun m hm => by rw [List.mem_singleton.mp hm]; exact hwf) (b := out ++ []) (.cons hout .nil)
    rwa [List.append_nil] at this
  have hserved := Conn.feed_carries (serverHandle env luck) hcar (st, []) hsegs
  rw [hdead] at hserved
  cases hs : serve env luck st (.message (.int w.nextId) (received op) none) with
  | none =>
    have hall : handAll (serverHandle env luck) (st, []) [.message (.int w.nextId) (received op) none] = ((st, []), true) := by
      simp only [handAll, serverHandle, hs]
      rfl
    rw [hall] at hserved
    cases hserved.2
  | some s =>
    have hall : handAll (serverHandle env luck) (st, []) [.message (.int w.nextId) (received op) none] = ((s.state, s.sent), false) := by
      simp only [handAll, serverHandle, hs, List.nil_append]
      rfl
    rw [hall] at hserved
    exact ⟨s, rfl, hserved.1⟩

theorem wires_unique {ms : List Obj} {a b : Bytes} (ha : Wires ms a) (hb : Wires ms b) : a = b := by
  induction ha generalizing b with
  | nil => cases hb; rfl
  | cons h1 _ ih =>
    cases hb with
    | cons h2 h =>
      rw [h1] at h2
      cases h2
      rw [ih h]

/-- The state of the server after an exchange is that after serving the request; what the Deferred is told is its one answer. -/
theorem exchanged_iff (hconn : (w.conns c).connected = true) (hid : w.nextId ≠ 0) (hfree : (w.conns c).onwire.lookup w.nextId = none)
    (hna : Client.needsAnswer op.build = some true) (hwf : op.WF) {st' : State} {o : Client.Outcome}
    (h : Exchanged env luck app fuel c w (.send c op.build none) st st' o) :
    ∃ s, serve env luck st (.message (.int w.nextId) (received op) none) = some s ∧ s.state = st' ∧ s.sent ≠ [] ∧
      ∀ r : Op, r.WF → Client.isResponse (received r) = true → s.sent = [(.int w.nextId, r.build)] → o = .response (received r) := by
  obtain ⟨p, q, out, hp, hlog, h⟩ := h
  have hout := written hconn hfree hna hlog
  obtain ⟨sent, back, h1, h2, h3, h4⟩ := h [out] (by simp)
  obtain ⟨s, hs, hst⟩ := served (segs := [out]) hwf hout (by simp) h2
  rw [h1] at hst
  cases hst
  refine ⟨s, hs, rfl, ?_, fun r hr hresp hsent => ?_⟩
  · intro he
    rw [he] at h3
    cases h3
    obtain ⟨_, ⟨l, hl⟩, _⟩ := h4 [] rfl
    have := congrArg List.length hl
    simp [Conn.feed, Conn.fresh] at this
  · rw [hsent] at h3
    obtain ⟨_, ⟨l, hl⟩, _⟩ := h4 [back] (by simp)
    have hcb := Conn.carries_wires [⟨w.nextId, r, none⟩] (fun m hm => by rw [List.mem_singleton.mp hm]; exact hr) h3
    let w₁ := Client.call app fuel w (.send c op.build none)
    have hfed := Conn.feed_carries (clientHandle app fuel c) hcb w₁ (segs := [back]) (by simp)
    have hc : w₁ = Client.sendNew w c op.build none false false .plain := by
      show Client.call app fuel w (.send c op.build none) = _
      cases fuel <;> simp only [Client.call]
    let p' : Client.Pending := ⟨w.deferreds.length, false, false, .plain⟩
    have hw₁ : w₁ = { w with
        nextId := w.nextId + 1
        conns := fun x => if x = c then { w.conns c with onwire := (w.conns c).onwire ++ [(w.nextId, p')] } else w.conns x
        deferreds := w.deferreds ++ [.waiting]
        log := w.log ++ [.made c w.nextId, .sent c w.nextId p' op.build, .written c out] } := by
      rw [hc]
      simp only [Client.sendNew, Client.sendOn, Client.prepare, hconn, if_true, Client.World.note, hfree, hna, Client.register,
        Client.World.setConn, Client.write, hout]
      simp [p']
    obtain ⟨w', l', g1, g2, _⟩ := delivered app fuel c w₁ w.nextId hid p' rfl rfl nofun (by rw [hw₁]; simp [List.lookup_append, hfree, List.lookup])
      (by rw [hw₁]; simp [p']) (received r) hresp
    have hfin : handAll (clientHandle app fuel c) w₁ ([⟨w.nextId, r, none⟩].map fun m : Msg =>
        .message (.int m.id) (received m.op) (m.controls.map (·.map Control.decoded))) = (w', false) := by
      simp only [List.map_cons, List.map_nil, Option.map_none, handAll, clientHandle, g1]
      rfl
    rw [hfin] at hfed
    have hl : (Conn.feed (clientHandle app fuel c) (Conn.fresh w₁) [back]).st.log = w₁.log ++ .fired p.d o :: l := hl
    rw [hfed.1] at hl
    simp only [g2] at hl
    have := List.append_cancel_left hl
    simp only [List.cons.injEq, Client.Note.fired.injEq] at this
    exact this.1.2.symm

theorem unanswered_iff (hconn : (w.conns c).connected = true) (hfree : (w.conns c).onwire.lookup w.nextId = none)
    (hna : Client.needsAnswer op.build = some true) (hwf : op.WF) {st' : State}
    (h : Unanswered env luck app fuel c w (.send c op.build none) st st') :
    serve env luck st (.message (.int w.nextId) (received op) none) = some ⟨st', []⟩ := by
  obtain ⟨p, q, out, hp, hlog, h⟩ := h
  have hout := written hconn hfree hna hlog
  obtain ⟨h1, h2⟩ := h [out] (by simp)
  obtain ⟨s, hs, hst⟩ := served (segs := [out]) hwf hout (by simp) h2
  rw [h1] at hst
  cases s
  cases hst
  exact hs

/-- A request to which the server writes nothing. -/
theorem unanswered (hconn : (w.conns c).connected = true) (hfree : (w.conns c).onwire.lookup w.nextId = none)
    (hna : Client.needsAnswer op.build = some true) (hwf : op.WF) {out : Bytes}
    (hout : toWire (.message (.int w.nextId) op.build none) = .ok out) {st' : State}
    (hs : serve env luck st (.message (.int w.nextId) (received op) none) = some ⟨st', []⟩) :
    Unanswered env luck app fuel c w (.send c op.build none) st st' := by
  let p' : Client.Pending := ⟨w.deferreds.length, false, false, .plain⟩
  refine ⟨p', op.build, out, rfl, ?_, fun segs hsegs => ?_⟩
  · have hc : Client.call app fuel w (.send c op.build none) = Client.sendNew w c op.build none false false .plain := by
      cases fuel <;> simp only [Client.call]
    rw [hc]
    simp only [Client.sendNew, Client.sendOn, Client.prepare, hconn, if_true, Client.World.note, hfree, hna, Client.register,
      Client.World.setConn, Client.write, hout]
    simp [p']
  · have hcar : Conn.Carries out [.message (.int w.nextId) (received op) none] := by
      have := Conn.carries_wires [⟨w.nextId, op, none⟩] (fun m hm => by rw [List.mem_singleton.mp hm]; exact hwf) (b := out ++ []) (.cons hout .nil)
      rwa [List.append_nil] at this
    have hserved := Conn.feed_carries (serverHandle env luck) hcar (st, []) hsegs
    have hall : handAll (serverHandle env luck) (st, []) [.message (.int w.nextId) (received op) none] = ((st', []), false) := by
      simp only [handAll, serverHandle, hs, List.nil_append]
      rfl
    rw [hall] at hserved
    exact hserved

/-- An exchange ends in one way. -/
theorem exchanged_unique {x : Client.Call} {st₁ st₂ : State} {o₁ o₂ : Client.Outcome}
    (h₁ : Exchanged env luck app fuel c w x st st₁ o₁) (h₂ : Exchanged env luck app fuel c w x st st₂ o₂) : st₁ = st₂ ∧ o₁ = o₂ := by
  obtain ⟨p, q, out, hp, hlog, h₁⟩ := h₁
  obtain ⟨p', q', out', hp', hlog', h₂⟩ := h₂
  have e := List.append_cancel_left (hlog.symm.trans hlog')
  simp only [List.cons.injEq, Client.Note.sent.injEq, Client.Note.written.injEq, true_and, and_true] at e
  obtain ⟨⟨rfl, rfl⟩, rfl⟩ := e
  obtain ⟨sent, back, a1, -, a3, a4⟩ := h₁ [out] (by simp)
  obtain ⟨sent', back', b1, -, b3, b4⟩ := h₂ [out] (by simp)
  have e := a1.symm.trans b1
  simp only [Prod.mk.injEq] at e
  obtain ⟨rfl, rfl⟩ := e
  have := wires_unique a3 b3
  subst this
  obtain ⟨-, ⟨l, hl⟩, -⟩ := a4 [back] (by simp)
  obtain ⟨-, ⟨l', hl'⟩, -⟩ := b4 [back] (by simp)
  have e := List.append_cancel_left (hl.symm.trans hl')
  simp only [List.cons.injEq, Client.Note.fired.injEq, true_and] at e
  exact ⟨rfl, e.1⟩

end Verif.Session
