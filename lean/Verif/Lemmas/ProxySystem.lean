import Verif.Lemmas.ProxyCore
/-
The client, the proxy and the server together.
-/
namespace Verif.ProxySession
open Verif.Ldap Verif.Spec Verif.Server Verif.ProxyBase Verif.Conn

/-- How many requests have been written to the server. -/
def written (up : Bool) (n : Nat) : Nat := if up then n else 0

/-- The proxy has received `n` requests and passed on `r` answers; `up` tells whether it has its connection to the server. -/
structure Proxy (ms : List Msg) (ans : Nat → List Op) (up : Bool) (n r : Nat) (s : St) : Prop where
  core : Core ms ans (written up n) n r s
  link : s.link = if up then .settled else .connecting
  client : s.client = up
  upConnected : s.upConnected = up
  queued : s.queued = if up then [] else upto ms (fun k m => (k, received m.op, m.controls.map (·.map Control.decoded))) n

/-- The encoding of a message. -/
def wire (i : Int) (op : Op) : Bytes := match toWire (.message (.int i) op.build none) with | .ok w => w | .error _ => []

/-- What the proxy writes for the first `n` requests. -/
def fwd (ms : List Msg) (n : Nat) : List (Bytes × Obj) :=
  upto ms (fun k m => (wire ((k : Int) + 1) m.op, .message (.int ((k : Int) + 1)) (received m.op) none)) n

/-- What the server answers to the first `n` requests. -/
def bck (ans : Nat → List Op) (n : Nat) : List (Bytes × Obj) :=
  (answers ans n).map fun x => (wire ((x.1 : Int) + 1) x.2, .message (.int ((x.1 : Int) + 1)) x.2.build none)

theorem dec_wire {i : Int} {op : Op} (hwf : op.WF) (he : encodes (.int i) op.build = true) :
    Dec topCtx (wire i op) (.message (.int i) (received op) none) := by
  unfold encodes at he
  unfold wire
  cases hw : toWire (.message (.int i) op.build none) with
  | error e => rw [hw] at he; cases he
  | ok w =>
    obtain ⟨o, rfl, hd, -⟩ := dec_message ⟨i, op, none⟩ hwf (w := w) (by simpa [Msg.build] using hw)
    exact hd

section
variable {ms : List Msg} {ans : Nat → List Op} (F : Common ms ans)
include F

theorem decodes_fwd {n : Nat} (hn : n ≤ ms.length) : Decodes (fwd ms n) := by
  intro x hx
  obtain ⟨k, m, hk, hm, rfl⟩ := upto_mem hx
  have henc := encodes_op' F hm (idRange_succ F (show k < ms.length by omega))
  rw [encodes_received] at henc
  exact dec_wire (F.wf m (List.mem_of_getElem? hm)) henc

theorem decodes_bck {n : Nat} (hn : n ≤ ms.length) : Decodes (bck ans n) := by
  intro x hx
  obtain ⟨y, hy, rfl⟩ := List.mem_map.mp hx
  have hm := answers_mem hy
  have hR := F.response y.1 (by omega) y.2 hm.2
  have := dec_wire (i := (y.1 : Int) + 1) hR.wf (hR.encodes _ (idRange_succ F (by omega)))
  rwa [hR.same] at this

theorem fwd_grow {n n' : Nat} (h : n ≤ n') (hn : n' ≤ ms.length) : ∃ M, fwd ms n' = fwd ms n ++ M ∧ Decodes M := by
  obtain ⟨M, hM⟩ := upto_prefix (ms := ms)
    (f := fun k m => (wire ((k : Int) + 1) m.op, Obj.message (.int ((k : Int) + 1)) (received m.op) none)) h
  refine ⟨M, hM, fun x hx => decodes_fwd F hn x ?_⟩
  rw [fwd, hM]
  exact List.mem_append_right _ hx

theorem bck_grow {n n' : Nat} (h : n ≤ n') (hn : n' ≤ ms.length) : ∃ M, bck ans n' = bck ans n ++ M ∧ Decodes M := by
  obtain ⟨M, hM⟩ := answers_prefix (ans := ans) h
  refine ⟨_, by rw [bck, hM, List.map_append]; rfl, fun x hx => decodes_bck F hn x ?_⟩
  rw [bck, hM, List.map_append]
  exact List.mem_append_right _ hx

theorem octets_wrote (n : Nat) : octets ((upto ms (fun k m => ((k : Int) + 1, k, received m.op, none)) n).map
    fun (x : Int × Nat × Obj × Client.Controls) => (PyVal.int x.1, x.2.2.1)) = bytesOf (fwd ms n) := by
  rw [upto_map]
  unfold octets bytesOf fwd
  induction n with
  | zero => rfl
  | succ n ih =>
    simp only [upto, List.flatMap_append, ih]
    congr 1
    cases ms[n]? with
    | none => rfl
    | some m =>
      simp only [Option.map_some, Option.toList_some, List.flatMap_cons, List.flatMap_nil, List.append_nil, wire_received, wire]
      generalize toWire _ = t
      cases t <;> rfl

omit F in
theorem octets_answers (n : Nat) : octets ((answers ans n).map fun x => (PyVal.int ((x.1 : Int) + 1), x.2.build)) = bytesOf (bck ans n) := by
  unfold octets bytesOf bck
  rw [List.flatMap_map, List.flatMap_map]
  rfl

theorem request_kind {k : Nat} {m : Msg} (hm : ms[k]? = some m) : isRequest (received m.op) = true := by
  rcases F.kind m (List.mem_of_getElem? hm) with h | h
  · exact Answerable.isRequest (answerable_received h)
  · rw [h]; rfl

theorem receive_eq {k : Nat} {m : Msg} (hm : ms[k]? = some m) (s : St) (id : PyVal) (controls : Client.Controls) :
    ∃ u, receive plainHooks s id (received m.op) controls =
      forward plainHooks { s with requests := s.requests ++ [⟨id, [], false, false⟩], unbound := u } s.requests.length (received m.op) controls := by
  have hp := F.plain m (List.mem_of_getElem? hm)
  cases hop : m.op with
  | extRequest n v =>
    refine ⟨s.unbound, ?_⟩
    have hn : n ≠ Client.startTLSOid := by
      rintro rfl
      exact hp v hop
    have : ¬ PyVal.bytes n = .bytes Client.startTLSOid := fun h => hn (PyVal.bytes.inj h)
    simp only [receive, received, Op.build, if_neg this]
  | unbind => exact ⟨true, rfl⟩
  | result k c a b => cases k <;> exact ⟨s.unbound, rfl⟩
  | _ => exact ⟨s.unbound, rfl⟩

/-- A message of the client. -/
theorem proxy_client {up : Bool} {n r : Nat} {s : St} (h : Proxy ms ans up n r s) {m : Msg} (hm : ms[n]? = some m) :
    (clientSide s (dm m)).2 = false ∧ Proxy ms ans up (n + 1) r (clientSide s (dm m)).1 := by
  have hlt : n < ms.length := (List.getElem?_eq_some_iff.mp hm).1
  have hreq := request_kind F hm
  have hid : PyVal.int m.id ≠ .int 0 := by
    intro h0
    have := PyVal.int.inj h0
    have := (F.id m (List.mem_of_getElem? hm)).1
    omega
  have hlen : s.requests.length = n := by rw [h.core.requests, upto_length (by omega)]
  obtain ⟨u, hu⟩ := receive_eq F hm s (.int m.id) (m.controls.map (·.map Control.decoded))
  have hstep : clientSide s (dm m) = (forward plainHooks { s with requests := s.requests ++ [⟨.int m.id, [], false, false⟩], unbound := u }
      n (received m.op) (m.controls.map (·.map Control.decoded)), false) := by
    simp only [clientSide, dm, hreq, if_true, step, h.core.connected, Bool.and_self, decide_true, hid, ne_eq,
      not_false_eq_true, hu, hlen]
  rw [hstep]
  refine ⟨rfl, ?_⟩
  have hcore : Core ms ans (written up n) (n + 1) r
      { s with requests := s.requests ++ [⟨.int m.id, [], false, false⟩], unbound := u } :=
    ⟨⟨by have := h.core.le.1; omega, hlt⟩, h.core.connected, h.core.noTls, by simp only [h.core.requests, upto_succ hm],
      h.core.sent, h.core.wrote, h.core.nextId, h.core.keys, h.core.found⟩
  cases up with
  | true =>
    have hc : s.client = true := h.client
    have hup : s.upConnected = true := h.upConnected
    obtain ⟨h1, h2, h3, h4, h5⟩ := core_forward F hcore hc hup (by simp [written]) hm (m.controls.map (·.map Control.decoded))
    exact ⟨h1, h4.trans h.link, h2, h3, h5.trans h.queued⟩
  | false =>
    have hc : s.client = false := h.client
    have : ∀ s' : St, s'.client = false → ∀ o c, forward plainHooks s' n o c = { s' with queued := s'.queued ++ [(n, o, c)] } := by
      intro s' hs' o c
      simp [forward, hs']
    show Proxy ms ans false (n + 1) r (forward plainHooks _ n (received m.op) _)
    rw [this { s with requests := s.requests ++ [⟨.int m.id, [], false, false⟩], unbound := u } hc]
    refine ⟨?_, h.link, h.client, h.upConnected, ?_⟩
    · exact ⟨hcore.le, hcore.connected, hcore.noTls, hcore.requests, hcore.sent, hcore.wrote, hcore.nextId, hcore.keys, hcore.found⟩
    · have := h.queued
      simp only [Bool.false_eq_true, if_false] at this ⊢
      rw [this, upto_succ hm]

/-- A message of the server. -/
theorem proxy_server {up : Bool} {n r : Nat} {s : St} (h : Proxy ms ans up n r s) {x : Nat × Op}
    (hx : (answers ans ms.length)[r]? = some x) (hw : x.1 < written up n) :
    (serverSide s (.message (.int ((x.1 : Int) + 1)) x.2.build none)).2 = false ∧
      Proxy ms ans up n (r + 1) (serverSide s (.message (.int ((x.1 : Int) + 1)) x.2.build none)).1 := by
  have hup : up = true := by
    cases up with
    | true => rfl
    | false => simp [written] at hw
  subst hup
  obtain ⟨h1, h2, h3, h4, h5, h6⟩ := core_response F h.core h.upConnected hx hw
  have hmem := answers_mem (List.mem_of_getElem? hx)
  have hR := F.response x.1 hmem.1 x.2 hmem.2
  have h0 : ¬ ((x.1 : Int) + 1 = 0) := by omega
  have he : serverSide s (.message (.int ((x.1 : Int) + 1)) x.2.build none) =
      (step plainHooks s (.response ((x.1 : Int) + 1) x.2.build), false) := by
    simp only [serverSide, hR.response, if_true, h0, if_false, h1]
  rw [he]
  exact ⟨rfl, h2, h5.trans h.link, h3.trans h.client, h4.trans h.upConnected, h6.trans h.queued⟩

/-- The backlog is worked off. -/
theorem core_backlog {n r : Nat} {s : St} (h : Core ms ans 0 n r s) (hc : s.client = true) (hu : s.upConnected = true) (j : Nat)
    (hj : j ≤ n) (q : List (Nat × Obj × Client.Controls))
    (hq : q = upto ms (fun k m => (k, received m.op, m.controls.map (·.map Control.decoded))) j) :
    Core ms ans j n r (q.foldl (fun s q => forward plainHooks s q.1 q.2.1 q.2.2) s) ∧
    (q.foldl (fun s q => forward plainHooks s q.1 q.2.1 q.2.2) s).client = true ∧
    (q.foldl (fun s q => forward plainHooks s q.1 q.2.1 q.2.2) s).upConnected = true ∧
    (q.foldl (fun s q => forward plainHooks s q.1 q.2.1 q.2.2) s).link = s.link ∧
    (q.foldl (fun s q => forward plainHooks s q.1 q.2.1 q.2.2) s).queued = s.queued := by
  induction j generalizing q with
  | zero => subst hq; exact ⟨h, hc, hu, rfl, rfl⟩
  | succ j ih =>
    have hjl : j < ms.length := by have := h.le.2; omega
    have hm := List.getElem?_eq_getElem hjl
    rw [upto_succ hm] at hq
    obtain ⟨h1, h2, h3, h4, h5⟩ := ih (by omega) _ rfl
    subst hq
    rw [List.foldl_append, List.foldl_cons, List.foldl_nil]
    obtain ⟨g1, g2, g3, g4, g5⟩ := core_forward F h1 h2 h3 (by omega) hm (ms[j].controls.map (·.map Control.decoded))
    exact ⟨g1, g2, g3, g4.trans h4, g5.trans h5⟩

/-- The connection to the server is there. -/
theorem proxy_up {up : Bool} {n r : Nat} {s : St} (h : Proxy ms ans up n r s) : Proxy ms ans true n r (step plainHooks s .up) := by
  cases up with
  | true =>
    have hl : ¬ s.link = .connecting := by rw [h.link]; simp
    have : step plainHooks s .up = s := by simp only [step, if_neg hl]
    rw [this]
    exact h
  | false =>
    have hl : s.link = .connecting := by rw [h.link]; simp
    have he : step plainHooks s .up = s.queued.foldl (fun s q => forward plainHooks s q.1 q.2.1 q.2.2)
        { s with link := .settled, client := true, upConnected := true, queued := [] } := by
      simp only [step, if_pos hl, ProxyBase.up, h.core.noTls, h.core.connected, backlog]
      rfl
    have hcore : Core ms ans 0 n r { s with link := .settled, client := true, upConnected := true, queued := [] } := by
      have hc := h.core
      exact ⟨hc.le, hc.connected, hc.noTls, hc.requests, hc.sent, hc.wrote, hc.nextId, hc.keys, hc.found⟩
    rw [he]
    obtain ⟨h1, h2, h3, h4, h5⟩ := core_backlog F hcore rfl rfl n (Nat.le_refl _) s.queued (by have := h.queued; simpa using this)
    exact ⟨h1, h4, h2, h3, h5⟩

end

section
variable {env : Env} {lucks : Nat → Luck} {ms : List Msg} {S : Nat → State} {ans : Nat → List Op} (F : Facts env lucks ms S ans)
include F

/-- The whole system: `n` requests received by the proxy, `q` handled by the server, `r` answers passed on. -/
structure Whole (lc : List (Bytes × Obj)) (up : Bool) (n q r : Nat) (Y : Sys) : Prop where
  clientAlive : Y.clientDead = false
  serverAlive : Y.serverDead = false
  alive : Y.server.dead = false
  pc : Pipe lc Y.heard Y.clientBuffer n
  pf : Pipe (fwd ms (written up n)) Y.forwarded Y.server.buffer q
  pb : Pipe (bck ans q) Y.returned Y.serverBuffer r
  server : Y.server.st = ⟨S q, (answers ans q).map fun x => (.int ((x.1 : Int) + 1), x.2.build), q⟩
  proxy : Proxy ms ans up n r Y.proxy

omit F in
theorem whole_start (options : Bool) {lc : List (Bytes × Obj)} (hlc : Decodes lc) :
    Whole (ms := ms) (S := S) (ans := ans) lc false 0 0 0 (start options (S 0)) := by
  refine ⟨rfl, rfl, rfl, Pipe.start lc hlc, Pipe.start _ ?_, Pipe.start _ ?_, rfl, ?_⟩
  · intro x hx; cases hx
  · intro x hx; cases hx
  · refine ⟨⟨by simp [written], rfl, rfl, rfl, rfl, rfl, rfl, ?_, ?_⟩, rfl, rfl, rfl, rfl⟩
    · intro e he; cases he
    · intro x _ hx; simp [written] at hx

variable {lc : List (Bytes × Obj)} (hlc : Decodes lc) (hlcLen : lc.length = ms.length) (hlcGet : ∀ (k : Nat) (m : Msg), ms[k]? = some m → ∃ w, lc[k]? = some (w, dm m))
include hlc hlcLen hlcGet

omit F hlc hlcLen hlcGet in
theorem whole_le {up : Bool} {n q r : Nat} {Y : Sys} (h : Whole (ms := ms) (S := S) (ans := ans) lc up n q r Y) :
    n ≤ ms.length ∧ q ≤ written up n ∧ written up n ≤ n := by
  have h1 := h.proxy.core.le
  refine ⟨h1.2, ?_, h1.1⟩
  have := h.pf.le
  rwa [fwd, upto_length (by omega)] at this

/-- Every step of the network keeps the books. -/
theorem whole_step {up : Bool} {n q r : Nat} {Y : Sys} (h : Whole (ms := ms) (S := S) (ans := ans) lc up n q r Y) (e : Event) :
    ∃ n' q' r', n ≤ n' ∧ q ≤ q' ∧ r ≤ r' ∧
      Whole (ms := ms) (S := S) (ans := ans) lc (match e with | .up => true | _ => up) n' q' r' (Y.step env lucks (bytesOf lc) e) := by
  obtain ⟨hn, hq, hwn⟩ := whole_le h
  cases e with
  | client k =>
    obtain ⟨n', buf', s', h1, h2, h3, h4⟩ := Pipe.receive (handle := clientSide) hlc (J := fun n s => Proxy ms ans up n r s)
      (fun n s x hx hp => by
        have hlt : n < ms.length := by rw [← hlcLen]; exact (List.getElem?_eq_some_iff.mp hx).1
        obtain ⟨w, hw⟩ := hlcGet n _ (List.getElem?_eq_getElem hlt)
        rw [hw] at hx
        rw [← Option.some.inj hx]
        exact proxy_client F.toCommon hp (List.getElem?_eq_getElem hlt)) h.pc h.proxy k
    refine ⟨n', q, r, h1, Nat.le_refl _, Nat.le_refl _, ?_⟩
    have hc := h.clientAlive
    have hn' := h3.core.le.2
    have hstep : Y.step env lucks (bytesOf lc) (.client k) =
        { Y with proxy := s', clientBuffer := buf', clientDead := false, heard := min (Y.heard + k) (bytesOf lc).length } := by
      simp only [Sys.step, hc, h2]
    rw [hstep]
    refine ⟨rfl, h.serverAlive, h.alive, h4, ?_, h.pb, h.server, h3⟩
    have hle : written up n ≤ written up n' := by unfold written; split <;> omega
    obtain ⟨M, hM, hD⟩ := fwd_grow F.toCommon hle (by have := h3.core.le.1; omega)
    rw [hM]
    exact h.pf.grow hD
  | up =>
    refine ⟨n, q, r, Nat.le_refl _, Nat.le_refl _, Nat.le_refl _, h.clientAlive, h.serverAlive, h.alive, h.pc, ?_, h.pb, h.server, proxy_up F.toCommon h.proxy⟩
    obtain ⟨M, hM, hD⟩ := fwd_grow F.toCommon (show written up n ≤ written true n by unfold written; split <;> simp) (by simp [written]; exact hn)
    rw [hM]
    exact h.pf.grow hD
  | forward k =>
    have hto : Y.toServer = bytesOf (fwd ms (written up n)) := by
      rw [Sys.toServer, h.proxy.core.wrote, octets_wrote F.toCommon]
    have hwl : written up n ≤ ms.length := by omega
    have hbuf : Y.server = ⟨Y.server.buffer, ⟨S q, (answers ans q).map fun x => (.int ((x.1 : Int) + 1), x.2.build), q⟩, false⟩ := by
      have h1 := h.server
      have h2 := h.alive
      cases hs : Y.server
      rw [hs] at h1 h2
      simp only at h1 h2
      rw [h1, h2]
    obtain ⟨q', buf', s', h1, h2, h3, h4⟩ := Pipe.receive (handle := serverHandle env lucks) (decodes_fwd F.toCommon hwl)
      (J := fun q x => x = ⟨S q, (answers ans q).map fun x => (.int ((x.1 : Int) + 1), x.2.build), q⟩)
      (fun q s x hx hp => by
        have hlt : q < written up n := by
          have := (List.getElem?_eq_some_iff.mp hx).1
          rwa [fwd, upto_length hwl] at this
        have hm := List.getElem?_eq_getElem (show q < ms.length by omega)
        rw [fwd, upto_get hwl hlt hm] at hx
        rw [← Option.some.inj hx, hp]
        have hserve := F.serve q _ hm ((q : Int) + 1) none (idRange_succ F.toCommon (by omega)) rfl
        simp only [serverHandle, hserve]
        refine ⟨trivial, ?_⟩
        simp only [answers, List.map_append, List.map_map, Function.comp_def]) h.pf rfl k
    refine ⟨n, q', r, Nat.le_refl _, h1, Nat.le_refl _, ?_⟩
    have hstep : Y.step env lucks (bytesOf lc) (.forward k) =
        { Y with server := ⟨buf', s', false⟩, forwarded := min (Y.forwarded + k) (bytesOf (fwd ms (written up n))).length } := by
      simp only [Sys.step, hto]
      rw [hbuf, h2]
    rw [hstep]
    have hq' : q' ≤ ms.length := by
      have := h4.le
      rw [fwd, upto_length hwl] at this
      omega
    obtain ⟨M, hM, hD⟩ := bck_grow F.toCommon h1 hq'
    refine ⟨h.clientAlive, h.serverAlive, rfl, h.pc, h4, ?_, h3, h.proxy⟩
    rw [hM]
    exact h.pb.grow hD
  | back k =>
    have hto : Y.toProxy = bytesOf (bck ans q) := by
      rw [Sys.toProxy, h.server, octets_answers]
    have hql : q ≤ ms.length := by omega
    obtain ⟨r', buf', s', h1, h2, h3, h4⟩ := Pipe.receive (handle := serverSide) (decodes_bck F.toCommon hql) (J := fun r s => Proxy ms ans up n r s)
      (fun r s x hx hp => by
        rw [bck, List.getElem?_map] at hx
        cases hy : (answers ans q)[r]? with
        | none => rw [hy] at hx; cases hx
        | some y =>
          rw [hy] at hx
          rw [← Option.some.inj hx]
          have hylt := (answers_mem (List.mem_of_getElem? hy)).1
          obtain ⟨M, hM⟩ := answers_prefix (ans := ans) hql
          refine proxy_server F.toCommon hp ?_ (by omega)
          rw [hM, List.getElem?_append_left (List.getElem?_eq_some_iff.mp hy).1, hy]) h.pb h.proxy k
    refine ⟨n, q, r', Nat.le_refl _, Nat.le_refl _, h1, ?_⟩
    have hc := h.serverAlive
    have hstep : Y.step env lucks (bytesOf lc) (.back k) =
        { Y with proxy := s', serverBuffer := buf', serverDead := false, returned := min (Y.returned + k) (bytesOf (bck ans q)).length } := by
      simp only [Sys.step, hto, hc, h2]
    rw [hstep]
    exact ⟨h.clientAlive, rfl, h.alive, h.pc, h.pf, h4, h.server, h3⟩

/-- Whether the connection to the server was set up. -/
def wentUp : List Event → Bool
  | [] => false
  | .up :: _ => true
  | _ :: es => wentUp es

theorem whole_run {up : Bool} {n q r : Nat} {Y : Sys} (h : Whole (ms := ms) (S := S) (ans := ans) lc up n q r Y) (es : List Event) :
    ∃ n' q' r', Whole (ms := ms) (S := S) (ans := ans) lc (up || wentUp es) n' q' r' (Y.run env lucks (bytesOf lc) es) := by
  induction es generalizing up n q r Y with
  | nil => exact ⟨n, q, r, by simpa [wentUp, Sys.run] using h⟩
  | cons e es ih =>
    obtain ⟨n', q', r', -, -, -, h'⟩ := whole_step F hlc hlcLen hlcGet h e
    obtain ⟨n2, q2, r2, h2⟩ := ih h'
    refine ⟨n2, q2, r2, ?_⟩
    cases e <;> simpa [wentUp, Sys.run] using h2

omit hlc hlcGet in
theorem whole_heard {up : Bool} {n q r : Nat} {Y : Sys} (h : Whole (ms := ms) (S := S) (ans := ans) lc up n q r Y)
    (hh : Y.heard = (bytesOf lc).length) : n = ms.length := by
  rw [(h.pc.all (by omega)).1, hlcLen]

omit hlc hlcLen hlcGet in
theorem whole_toServer {up : Bool} {n q r : Nat} {Y : Sys} (h : Whole (ms := ms) (S := S) (ans := ans) lc up n q r Y) :
    Y.toServer = bytesOf (fwd ms (written up n)) := by
  rw [Sys.toServer, h.proxy.core.wrote, octets_wrote F.toCommon]

omit F hlc hlcLen hlcGet in
theorem whole_toProxy {up : Bool} {n q r : Nat} {Y : Sys} (h : Whole (ms := ms) (S := S) (ans := ans) lc up n q r Y) :
    Y.toProxy = bytesOf (bck ans q) := by
  rw [Sys.toProxy, h.server, octets_answers]

omit F hlc hlcLen hlcGet in
theorem whole_forwarded {up : Bool} {n q r : Nat} {Y : Sys} (h : Whole (ms := ms) (S := S) (ans := ans) lc up n q r Y)
    (hf : Y.forwarded = (bytesOf (fwd ms (written up n))).length) : q = written up n := by
  rw [(h.pf.all (by omega)).1, fwd, upto_length]
  have := h.proxy.core.le
  omega

omit F hlc hlcLen hlcGet in
theorem whole_returned {up : Bool} {n q r : Nat} {Y : Sys} (h : Whole (ms := ms) (S := S) (ans := ans) lc up n q r Y)
    (hb : Y.returned = (bytesOf (bck ans q)).length) : r = (answers ans q).length := by
  rw [(h.pb.all (by omega)).1, bck, List.length_map]

omit F hlc hlcLen hlcGet in
/-- What the client has been sent so far. -/
theorem whole_toClient {up : Bool} {n q r : Nat} {Y : Sys} (h : Whole (ms := ms) (S := S) (ans := ans) lc up n q r Y) :
    Y.toClient = octets (((answers ans ms.length).take r).map fun x => (.int (idOf ms x.1), x.2.build)) := by
  rw [Sys.toClient, h.proxy.core.sent, List.map_map]
  rfl

/-- Once everything is delivered, everything is answered. -/
theorem whole_done {n q r : Nat} {Y : Sys} (h : Whole (ms := ms) (S := S) (ans := ans) lc true n q r Y)
    (hh : Y.heard = (bytesOf lc).length) (hf : Y.forwarded = Y.toServer.length) (hb : Y.returned = Y.toProxy.length) :
    q = ms.length ∧ r = (answers ans ms.length).length := by
  have hn := whole_heard F hlcLen h hh
  have hq : q = ms.length := (whole_forwarded h (by rw [hf, whole_toServer F h])).trans (by simp [written, hn])
  have hr := whole_returned h (by rw [hb, whole_toProxy h])
  rw [hq] at hr
  exact ⟨hq, hr⟩

/-- Four more deliveries suffice. -/
theorem whole_arrives {up : Bool} {n q r : Nat} {Y : Sys} (h : Whole (ms := ms) (S := S) (ans := ans) lc up n q r Y) {k : Nat}
    (h1 : (bytesOf lc).length ≤ k) (h2 : (bytesOf (fwd ms ms.length)).length ≤ k) (h3 : (bytesOf (bck ans ms.length)).length ≤ k) :
    ∃ n q r, Whole (ms := ms) (S := S) (ans := ans) lc true n q r (Y.run env lucks (bytesOf lc) [.client k, .up, .forward k, .back k]) ∧
      (Y.run env lucks (bytesOf lc) [.client k, .up, .forward k, .back k]).heard = (bytesOf lc).length ∧
      (Y.run env lucks (bytesOf lc) [.client k, .up, .forward k, .back k]).forwarded =
        (Y.run env lucks (bytesOf lc) [.client k, .up, .forward k, .back k]).toServer.length ∧
      (Y.run env lucks (bytesOf lc) [.client k, .up, .forward k, .back k]).returned =
        (Y.run env lucks (bytesOf lc) [.client k, .up, .forward k, .back k]).toProxy.length := by
  have hrun : Y.run env lucks (bytesOf lc) [.client k, .up, .forward k, .back k] =
    (((Y.step env lucks (bytesOf lc) (.client k)).step env lucks (bytesOf lc) .up).step env lucks (bytesOf lc) (.forward k)).step
      env lucks (bytesOf lc) (.back k) := rfl
  rw [hrun]
  have e1 : (Y.step env lucks (bytesOf lc) (.client k)).heard = min (Y.heard + k) (bytesOf lc).length := rfl
  obtain ⟨n1, q1, r1, -, -, -, w1⟩ := whole_step F hlc hlcLen hlcGet h (.client k)
  generalize Y.step env lucks (bytesOf lc) (.client k) = Y1 at e1 w1 ⊢
  have e2 : (Y1.step env lucks (bytesOf lc) .up).heard = Y1.heard := rfl
  obtain ⟨n2, q2, r2, -, -, -, w2⟩ := whole_step F hlc hlcLen hlcGet w1 .up
  generalize Y1.step env lucks (bytesOf lc) .up = Y2 at e2 w2 ⊢
  have e3 : (Y2.step env lucks (bytesOf lc) (.forward k)).heard = Y2.heard := rfl
  have f3 : (Y2.step env lucks (bytesOf lc) (.forward k)).forwarded = min (Y2.forwarded + k) Y2.toServer.length := rfl
  obtain ⟨n3, q3, r3, -, -, -, w3⟩ := whole_step F hlc hlcLen hlcGet w2 (.forward k)
  generalize Y2.step env lucks (bytesOf lc) (.forward k) = Y3 at e3 f3 w3 ⊢
  have e4 : (Y3.step env lucks (bytesOf lc) (.back k)).heard = Y3.heard := rfl
  have f4 : (Y3.step env lucks (bytesOf lc) (.back k)).forwarded = Y3.forwarded := rfl
  have g4 : (Y3.step env lucks (bytesOf lc) (.back k)).returned = min (Y3.returned + k) Y3.toProxy.length := rfl
  obtain ⟨n4, q4, r4, -, -, -, w4⟩ := whole_step F hlc hlcLen hlcGet w3 (.back k)
  generalize Y3.step env lucks (bytesOf lc) (.back k) = Y4 at e4 f4 g4 w4 ⊢
  have hh : Y4.heard = (bytesOf lc).length := by omega
  have m2 := whole_heard F hlcLen w2 (by omega)
  have m3 := whole_heard F hlcLen w3 (by omega)
  have m4 := whole_heard F hlcLen w4 hh
  subst m2; subst m3; subst m4
  have t2 := whole_toServer F w2
  have t4 := whole_toServer F w4
  simp only [written, if_true] at t2 t4
  rw [t2] at f3
  have hf3 : Y3.forwarded = (bytesOf (fwd ms ms.length)).length := by omega
  have hq3 := whole_forwarded w3 (by simpa [written] using hf3)
  have hq4 := whole_forwarded w4 (by simp only [written, if_true]; omega)
  simp only [written, if_true] at hq3 hq4
  subst hq3; subst hq4
  have p3 := whole_toProxy w3
  have p4 := whole_toProxy w4
  rw [p3] at g4
  refine ⟨_, _, _, w4, hh, ?_, ?_⟩
  · rw [t4]; omega
  · rw [p4]; omega

end

theorem wentUp_iff (es : List Event) : wentUp es = true ↔ Event.up ∈ es := by
  induction es with
  | nil => simp [wentUp]
  | cons e es ih => cases e <;> simp [wentUp, ih]

/-- The messages of the client as they arrive. -/
theorem arriving (ms : List Msg) (hwf : ∀ m ∈ ms, m.op.WF) {b : Bytes} (h : Wires (ms.map Msg.build) b) :
    ∃ lc : List (Bytes × Obj), Decodes lc ∧ bytesOf lc = b ∧ lc.length = ms.length ∧
      ∀ (k : Nat) (m : Msg), ms[k]? = some m → ∃ w, lc[k]? = some (w, dm m) := by
  induction ms generalizing b with
  | nil =>
    cases h
    exact ⟨[], (fun x hx => by cases hx), rfl, rfl, nofun⟩
  | cons m ms ih =>
    cases h with
    | @cons _ _ w b hw h =>
      obtain ⟨o, rfl, ho, _⟩ := dec_message m (hwf m List.mem_cons_self) hw
      obtain ⟨lc, h1, h2, h3, h4⟩ := ih (fun x hx => hwf x (List.mem_cons_of_mem _ hx)) h
      refine ⟨(w, dm m) :: lc, ?_, by simp [bytesOf] at h2 ⊢; exact h2, by simp [h3], ?_⟩
      · intro x hx
        rcases List.mem_cons.mp hx with rfl | hx
        · exact ho
        · exact h1 x hx
      · intro k m' hm
        cases k with
        | zero => exact ⟨w, by simp at hm; subst hm; rfl⟩
        | succ k => exact h4 k m' (by simpa using hm)

theorem octets_append (l l' : List (PyVal × Obj)) : octets (l ++ l') = octets l ++ octets l' := by
  simp [octets]

end Verif.ProxySession
