import Verif.Model.Session
import Verif.Spec.Session
import Verif.Lemmas.Transport
import Verif.Lemmas.Client
import Verif.Lemmas.Total
/-
One request and one response between the client and the server of the library.
-/
namespace Verif.Session
open Verif.Ldap Verif.Spec Verif.Server

theorem wires_exist {ms : List Obj} (h : ∀ m ∈ ms, (toWire m).isOk = true) : ∃ b, Wires ms b := by
  induction ms with
  | nil => exact ⟨[], .nil⟩
  | cons m ms ih =>
    obtain ⟨b, hb⟩ := ih fun x hx => h x (List.mem_cons_of_mem _ hx)
    have := h m List.mem_cons_self
    cases hm : toWire m with
    | error e => rw [hm] at this; cases this
    | ok w => exact ⟨_, .cons hm hb⟩

theorem lookup_filter {α : Type} (i : Int) (l : List (Int × α)) : (l.filter fun e => e.1 ≠ i).lookup i = none := by
  induction l with
  | nil => rfl
  | cons p l ih =>
    rw [List.filter_cons]
    split
    · rename_i h
      simp only [decide_eq_true_eq] at h
      rw [List.lookup_cons, show (i == p.1) = false by simpa using fun h' => h h'.symm]
      exact ih
    · exact ih

/-- What the Deferred of a call without a handler is told. -/
def outcomeOf (chain : Client.Chain) (op : Obj) : Client.Outcome :=
  match chain with
  | .bind => Client.bindOutcome op
  | _ => .response op

theorem calls_log (app : Client.App) (fuel : Nat) (xs : List Client.Call) (w : Client.World) :
    ∃ l, (xs.foldl (Client.call app fuel) w).log = w.log ++ l := by
  induction xs generalizing w with
  | nil => exact ⟨[], by simp⟩
  | cons x xs ih =>
    obtain ⟨l, h, _⟩ := Client.call_log app fuel w x
    obtain ⟨m, hm⟩ := ih (Client.call app fuel w x)
    exact ⟨l ++ m, by rw [List.foldl_cons, hm, h, List.append_assoc]⟩

/-- The response is delivered. -/
theorem delivered (app : Client.App) (fuel c : Nat) (w : Client.World) (i : Int) (hi : i ≠ 0) (p : Client.Pending) (hh : p.handler = false)
    (hrc : p.returnControls = false) (hch : p.chain ≠ .startTLS) (hl : (w.conns c).onwire.lookup i = some p)
    (hd : w.deferreds[p.d]? = some .waiting) (op : Obj) (hr : Client.isResponse op = true) :
    ∃ w' l, Client.handle app fuel w c (.message (.int i) op none) = (w', false) ∧ w'.log = w.log ++ .fired p.d (outcomeOf p.chain op) :: l ∧
      (w'.conns c).onwire.lookup i = none := by
  have hdel : Client.deliver app fuel w c p op none = Client.fire app fuel w p.d (outcomeOf p.chain op) := by
    unfold Client.deliver outcomeOf
    cases hp : p.chain with
    | plain => simp [hrc]
    | bind => rfl
    | startTLS => exact absurd hp hch
  have hfire : Client.fire app fuel w p.d (outcomeOf p.chain op) =
      (Client.react app fuel ((w.setD p.d .done).note (.fired p.d (outcomeOf p.chain op))), false) := by
    simp only [Client.fire, hd]
  obtain ⟨l, hl'⟩ := calls_log app fuel (app ((w.setD p.d .done).note (.fired p.d (outcomeOf p.chain op))).log).calls
    ((w.setD p.d .done).note (.fired p.d (outcomeOf p.chain op)))
  refine ⟨Client.forget (Client.react app fuel ((w.setD p.d .done).note (.fired p.d (outcomeOf p.chain op)))) c i, l, ?_, ?_, ?_⟩
  · simp [Client.handle, hr, hi, hl, hh, hdel, hfire]
  · show (Client.react app fuel ((w.setD p.d .done).note (.fired p.d (outcomeOf p.chain op)))).log = _
    unfold Client.react
    rw [hl']
    simp [Client.World.note, Client.World.setD]
  · simp only [Client.forget, Client.World.setConn, if_true]
    exact lookup_filter _ _

/-- One request that can be encoded, one response. -/
theorem exchange_wire (env : Env) (luck : Luck) (st : State) (app : Client.App) (fuel c : Nat) (w : Client.World)
    (hconn : (w.conns c).connected = true) (hid : w.nextId ≠ 0) (hfree : (w.conns c).onwire.lookup w.nextId = none)
    (x : Client.Call) (chain : Client.Chain) (hch : chain ≠ .startTLS) (op r : Op) (hwf : op.WF)
    (hx : Client.call app fuel w x = Client.sendNew w c op.build none false false chain) (hna : Client.needsAnswer op.build = some true)
    {out : Bytes} (hout : toWire (.message (.int w.nextId) op.build none) = .ok out) (s : Served)
    (hs : serve env luck st (.message (.int w.nextId) (received op) none) = some s) (hsent : s.sent = [(.int w.nextId, r.build)])
    (hr : r.WF) (hresp : Client.isResponse (received r) = true) (henc : encodes (.int w.nextId) r.build = true) :
    Exchanged env luck app fuel c w x st s.state (outcomeOf chain (received r)) := by
  let p : Client.Pending := ⟨w.deferreds.length, false, false, chain⟩
  let w₁ := Client.call app fuel w x
  have hw₁ : w₁ = { w with
      nextId := w.nextId + 1
      conns := fun x => if x = c then { w.conns c with onwire := (w.conns c).onwire ++ [(w.nextId, p)] } else w.conns x
      deferreds := w.deferreds ++ [.waiting]
      log := w.log ++ [.made c w.nextId, .sent c w.nextId p op.build, .written c out] } := by
    show Client.call app fuel w x = _
    rw [hx]
    simp only [Client.sendNew, Client.sendOn, Client.prepare, hconn, if_true, Client.World.note, hfree, hna, Client.register,
      Client.World.setConn, Client.write, hout]
    simp [p]
  have hlog : w₁.log = w.log ++ [.made c w.nextId, .sent c w.nextId p op.build, .written c out] := by rw [hw₁]
  have hwire : (w₁.conns c).onwire.lookup w.nextId = some p := by
    rw [hw₁]
    simp [List.lookup_append, hfree, List.lookup]
  have hdef : w₁.deferreds[p.d]? = some .waiting := by
    rw [hw₁]
    simp [p]
  refine ⟨p, op.build, out, rfl, hlog, fun segs hsegs => ?_⟩
  have hcar : Conn.Carries out [.message (.int w.nextId) (received op) none] := by
    have := Conn.carries_wires [⟨w.nextId, op, none⟩] (fun m hm => by rw [List.mem_singleton.mp hm]; exact hwf) (b := out ++ []) (.cons hout .nil)
    rwa [List.append_nil] at this
  have hserved := Conn.feed_carries (serverHandle env luck) hcar (st, []) hsegs
  have hall : handAll (serverHandle env luck) (st, []) [.message (.int w.nextId) (received op) none] = ((s.state, s.sent), false) := by
    simp only [handAll, serverHandle, hs, List.nil_append]
    rfl
  rw [hall] at hserved
  obtain ⟨back, hback⟩ := wires_exist (ms := s.sent.map fun x => Obj.message x.1 x.2 none) (by
    intro m hm
    rw [hsent] at hm
    rw [List.mem_singleton.mp hm]
    exact henc)
  refine ⟨s.sent, back, hserved.1, hserved.2, hback, fun segs' hsegs' => ?_⟩
  rw [hsent] at hback
  have hcb := Conn.carries_wires [⟨w.nextId, r, none⟩] (fun m hm => by rw [List.mem_singleton.mp hm]; exact hr) hback
  have hfed := Conn.feed_carries (clientHandle app fuel c) hcb w₁ hsegs'
  obtain ⟨w', l, h1, h2, h3⟩ := delivered app fuel c w₁ w.nextId hid p rfl rfl hch hwire hdef (received r) hresp
  have hfin : handAll (clientHandle app fuel c) w₁ ([⟨w.nextId, r, none⟩].map fun m : Msg =>
      .message (.int m.id) (received m.op) (m.controls.map (·.map Control.decoded))) = (w', false) := by
    simp only [List.map_cons, List.map_nil, Option.map_none, handAll, clientHandle, h1]
    rfl
  rw [hfin] at hfed
  refine ⟨hfed.2, ⟨l, ?_⟩, ?_⟩
  · show (Conn.feed (clientHandle app fuel c) (Conn.fresh w₁) segs').st.log = _
    rw [hfed.1]
    exact h2
  · show ((Conn.feed (clientHandle app fuel c) (Conn.fresh w₁) segs').st.conns c).onwire.lookup _ = _
    rw [hfed.1]
    exact h3

/-- One request, one response. -/
theorem exchange (env : Env) (luck : Luck) (st : State) (app : Client.App) (fuel c : Nat) (w : Client.World)
    (hconn : (w.conns c).connected = true) (hid : w.nextId ≠ 0) (hfree : (w.conns c).onwire.lookup w.nextId = none)
    (x : Client.Call) (chain : Client.Chain) (hch : chain ≠ .startTLS) (op r : Op) (hwf : op.WF)
    (hx : Client.call app fuel w x = Client.sendNew w c op.build none false false chain) (hna : Client.needsAnswer op.build = some true)
    (hsize : (Msg.mk w.nextId op none).size < lengthLimit) (s : Served)
    (hs : serve env luck st (.message (.int w.nextId) (received op) none) = some s) (hsent : s.sent = [(.int w.nextId, r.build)])
    (hr : r.WF) (hresp : Client.isResponse (received r) = true) (henc : encodes (.int w.nextId) r.build = true) :
    Exchanged env luck app fuel c w x st s.state (outcomeOf chain (received r)) := by
  obtain ⟨out, hout, _⟩ := W.msg ⟨w.nextId, op, none⟩ hsize
  have hout : toWire (.message (.int w.nextId) op.build none) = .ok out := hout
  exact exchange_wire env luck st app fuel c w hconn hid hfree x chain hch op r hwf hx hna hout s hs hsent hr hresp henc

end Verif.Session
