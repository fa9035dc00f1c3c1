import Verif.Lemmas.Concurrent
import Verif.Spec.Shared
/-
Several clients of one server: the requests are handled one after the other.
-/
namespace Verif.Shared
open Verif.Ldap Verif.Spec Verif.Server Verif.ProxySession Verif.Conn Verif.Concurrent
open Verif.Client (World App)

/-! ### One request -/

/-- One request, alone. -/
theorem direct_one {env : Env} {luck : Luck} {st : State} {m : Msg} {b : Bytes} {s : Served} (hwf : m.op.WF) (hb : toWire m.build = .ok b)
    (hserve : serve env luck st (dm m) = some s) : direct env (fun _ => luck) st [b] = ⟨s.state, s.sent, 1⟩ := by
  have hc := carries_wires [m] (fun x hx => by rw [List.mem_singleton.mp hx]; exact hwf) (.cons hb .nil)
  have h := (feed_carries (serverHandle env fun _ => luck) hc ⟨st, [], 0⟩ (segs := [b]) (by simp)).1
  unfold direct
  rw [h]
  show (handAll _ _ [dm m]).1 = _
  simp [handAll, serverHandle, hserve]

theorem turn_eq {env : Env} {lucks : Nat → Nat → Luck} {ms : Nat → List Msg} {B : Books} {j : Nat} {m : Msg} {b : Bytes} {s : Served}
    (hm : (ms j)[B.done j]? = some m) (hwf : m.op.WF) (hb : toWire m.build = .ok b)
    (hserve : serve env (lucks j (B.done j)) ⟨B.heap, B.bound j⟩ (dm m) = some s) :
    turn env lucks ms B j = ⟨s.state.heap, fun i => if i = j then s.state.bound else B.bound i,
      fun i => if i = j then B.done j + 1 else B.done i, fun i => if i = j then B.sent j ++ s.sent else B.sent i⟩ := by
  unfold turn
  rw [hm]
  simp only
  rw [hb]
  simp only
  rw [direct_one hwf hb hserve]

theorem oneByOne_concat (env : Env) (lucks : Nat → Nat → Luck) (ms : Nat → List Msg) (heap : Tree.Heap) (T : List Nat) (j : Nat) :
    oneByOne env lucks ms heap (T ++ [j]) = turn env lucks ms (oneByOne env lucks ms heap T) j := by
  simp [oneByOne]

/-! ### Answers that come later -/

theorem answers_quiet {ans : Nat → List Op} {q N : Nat} (h : ∀ k, q ≤ k → ans k = []) (hN : q ≤ N) : answers ans N = answers ans q := by
  induction N with
  | zero => rw [show q = 0 by omega]
  | succ N ih =>
    by_cases hq : q = N + 1
    · rw [hq]
    · rw [answers, ih (by omega), h N (by omega)]
      simp

theorem answers_agree {ans ans' : Nat → List Op} {q : Nat} (h : ∀ k < q, ans' k = ans k) : answers ans' q = answers ans q := by
  induction q with
  | zero => rfl
  | succ q ih => rw [answers, answers, ih (fun k hk => h k (by omega)), h q (by omega)]

/-- The client does not know of answers that it has not got. -/
theorem answered_later {ms : List Msg} {ans ans' : Nat → List Op} {c n r : Nat} {w : World} (h : Answered ms ans c n r w)
    (he : (answers ans' ms.length).take r = (answers ans ms.length).take r) : Answered ms ans' c n r w := by
  have h1 : fin ms ans' r = fin ms ans r := by funext k; unfold fin; rw [he]
  have h2 : got ms ans' r = got ms ans r := by funext k; unfold got; rw [he]
  unfold Answered at h ⊢
  rw [h1, h2, he]
  exact h

/-! ### One connection -/

section
variable {env : Env} {lucks : Nat → Nat → Luck} {ms : Nat → List Msg} {heap : Tree.Heap} {turns : List Nat}

/-- What the books say of the connection `j`. -/
structure Account (ms : Nat → List Msg) (B : Books) (j : Nat) (ans : Nat → List Op) : Prop where
  common : Common (ms j) ans
  shape : ∀ k m, (ms j)[k]? = some m → Shape m.op.build (ans k)
  quiet : ∀ k, B.done j ≤ k → ans k = []
  sent : B.sent j = (answers ans (B.done j)).map fun x => (.int (((ms j)[x.1]?.map Msg.id).getD 0), x.2.build)

/-- The next request of `j` is handled. -/
theorem entry_turn (ho : Orderly env lucks heap ms turns) (hnc : ∀ j, ∀ m ∈ ms j, m.controls = none) {T : List Nat} (hT : T <+: turns)
    {j : Nat} {ans : Nat → List Op} (h : Account ms (oneByOne env lucks ms heap T) j ans) {m : Msg}
    (hm : (ms j)[(oneByOne env lucks ms heap T).done j]? = some m) :
    ∃ ans', Account ms (oneByOne env lucks ms heap (T ++ [j])) j ans' ∧ (∀ k < (oneByOne env lucks ms heap T).done j, ans' k = ans k) ∧
      (oneByOne env lucks ms heap (T ++ [j])).done j = (oneByOne env lucks ms heap T).done j + 1 ∧
      (∀ i controls, IdRange i → checkControls controls = .ok () →
        serve env (lucks j ((oneByOne env lucks ms heap T).done j)) ⟨(oneByOne env lucks ms heap T).heap, (oneByOne env lucks ms heap T).bound j⟩
          (.message (.int i) (received m.op) controls) =
        some ⟨⟨(oneByOne env lucks ms heap (T ++ [j])).heap, (oneByOne env lucks ms heap (T ++ [j])).bound j⟩,
          (ans' ((oneByOne env lucks ms heap T).done j)).map fun r => (.int i, r.build)⟩) ∧
      ∀ i, i ≠ j → (oneByOne env lucks ms heap (T ++ [j])).bound i = (oneByOne env lucks ms heap T).bound i ∧
        (oneByOne env lucks ms heap (T ++ [j])).done i = (oneByOne env lucks ms heap T).done i ∧
        (oneByOne env lucks ms heap (T ++ [j])).sent i = (oneByOne env lucks ms heap T).sent i := by
  have hmem := List.mem_of_getElem? hm
  have hP := ho.proper j m hmem
  obtain ⟨hfit, hmod⟩ := ho.each T j hT m hm
  have hc := hnc j m hmem
  rw [oneByOne_concat]
  generalize oneByOne env lucks ms heap T = B at *
  have hp : Passable (lucks j (B.done j)) ⟨B.heap, B.bound j⟩ m :=
    ⟨hP.id, hP.wf, hP.size, hP.kind, hP.plain, hP.uncritical, hfit, hmod⟩
  obtain ⟨a, st', hserve, hres, hord, hunb⟩ := served_any (env := env) hp
  have hctl := h.common.uncritical m hmem
  have hdm := hserve m.id _ hP.id hctl
  obtain ⟨b, hb⟩ : ∃ b, toWire m.build = .ok b := by
    have := encodes_op m.id m.op ⟨by have := hP.id; omega, hP.id.2⟩ hP.size
    unfold encodes at this
    unfold Msg.build
    rw [hc]
    cases hw : toWire (.message (.int m.id) m.op.build none) with
    | ok b => exact ⟨b, by simpa using hw⟩
    | error e => rw [hw] at this; cases this
  have ht := turn_eq (env := env) (lucks := lucks) hm hP.wf hb hdm
  rw [ht]
  refine ⟨fun k => if k = B.done j then a else ans k, ?_, ?_, by simp, ?_, ?_⟩
  · refine ⟨?_, ?_, ?_, ?_⟩
    · have hC := h.common
      refine ⟨hC.few, hC.id, hC.wf, hC.size, hC.kind, hC.plain, ?_, hC.uncritical, ?_, ?_⟩
      · intro k m' hm' hu
        by_cases hk : k = B.done j
        · subst hk
          rw [hm] at hm'
          cases hm'
          simpa using hunb hu
        · simp only [if_neg hk]; exact hC.silent k m' hm' hu
      · intro k hk r hr
        by_cases hk' : k = B.done j
        · simp only [if_pos hk'] at hr; exact hres r hr
        · simp only [if_neg hk'] at hr; exact hC.response k hk r hr
      · intro k hk
        by_cases hk' : k = B.done j
        · simp only [if_pos hk']; exact hord
        · simp only [if_neg hk']; exact hC.order k hk
    · intro k m' hm'
      by_cases hk : k = B.done j
      · subst hk
        rw [hm] at hm'
        cases hm'
        simp only [if_true]
        exact shape_one hp hunb (hserve 1 none ⟨by omega, by omega⟩ rfl)
      · simp only [if_neg hk]; exact h.shape k m' hm'
    · intro k hk
      simp only [if_true] at hk
      simp only [if_neg (show ¬ k = B.done j by omega)]
      exact h.quiet k (by omega)
    · simp only [if_true]
      rw [answers, answers_agree (ans := ans) (fun k hk => by simp only [if_neg (show ¬ k = B.done j by omega)]), List.map_append, ← h.sent,
        List.map_map]
      congr 1
      simp only [if_true, Function.comp_def, hm, Option.map_some, Option.getD_some]
  · intro k hk
    simp only [if_neg (show ¬ k = B.done j by omega)]
  · intro i controls hi hcs
    rw [hserve i controls hi hcs]
    simp only [if_true]
  · intro i hi
    simp only [if_neg hi]
    exact ⟨trivial, trivial, trivial⟩

/-- What is counted is not counted back. -/
theorem count_le {luck : Nat → Luck} (s : Serving) (m : Obj) : s.count ≤ (serverHandle env luck s m).1.count := by
  unfold serverHandle
  split
  · exact Nat.le_succ _
  · exact Nat.le_refl _

theorem replicate_prefix {T U : List Nat} {j a b : Nat} (hab : a ≤ b) (h : T ++ List.replicate b j <+: U) : T ++ List.replicate a j <+: U := by
  refine List.IsPrefix.trans ?_ h
  rw [show b = a + (b - a) by omega, List.replicate_add, ← List.append_assoc]
  exact List.prefix_append ..

/-- Octets of the client `j` arrive at the server. -/
theorem whole_out (ho : Orderly env lucks heap ms turns) (hnc : ∀ j, ∀ m ∈ ms j, m.controls = none) {T : List Nat} {j : Nat}
    {app : App} {fuel c n r : Nat} {Y : Concurrent.Sys} {ans : Nat → List Op} (hE : Account ms (oneByOne env lucks ms heap T) j ans)
    (h : Concurrent.Whole (ms j) (fun _ => ⟨(oneByOne env lucks ms heap T).heap, (oneByOne env lucks ms heap T).bound j⟩) ans c n
      ((oneByOne env lucks ms heap T).done j) r Y) (k : Nat)
    (hT : T ++ List.replicate ((Y.step env (lucks j) app fuel c (.out k)).server.st.count - Y.server.st.count) j <+: turns) :
    ∃ q ans', Y.server.st.count ≤ q ∧
      (Y.step env (lucks j) app fuel c (.out k)).server.st.count = q ∧
      (oneByOne env lucks ms heap (T ++ List.replicate (q - Y.server.st.count) j)).done j = q ∧
      Account ms (oneByOne env lucks ms heap (T ++ List.replicate (q - Y.server.st.count) j)) j ans' ∧
      Concurrent.Whole (ms j) (fun _ => ⟨(oneByOne env lucks ms heap (T ++ List.replicate (q - Y.server.st.count) j)).heap,
        (oneByOne env lucks ms heap (T ++ List.replicate (q - Y.server.st.count) j)).bound j⟩) ans' c n q r (Y.step env (lucks j) app fuel c (.out k)) ∧
      ∀ i, i ≠ j → (oneByOne env lucks ms heap (T ++ List.replicate (q - Y.server.st.count) j)).bound i = (oneByOne env lucks ms heap T).bound i ∧
        (oneByOne env lucks ms heap (T ++ List.replicate (q - Y.server.st.count) j)).done i = (oneByOne env lucks ms heap T).done i ∧
        (oneByOne env lucks ms heap (T ++ List.replicate (q - Y.server.st.count) j)).sent i = (oneByOne env lucks ms heap T).sent i := by
  have hC := hE.common
  obtain ⟨hn, hq⟩ := whole_le h
  have hcount : Y.server.st.count = (oneByOne env lucks ms heap T).done j := by rw [h.server]
  rw [hcount] at hT ⊢
  have hto : octetsOut c Y.client.log = bytesOf (fwd (ms j) n) := h.client.1.wrote
  generalize hq0 : (oneByOne env lucks ms heap T).done j = q0 at *
  have hbuf : Y.server = ⟨Y.server.buffer, ⟨⟨(oneByOne env lucks ms heap T).heap, (oneByOne env lucks ms heap T).bound j⟩,
      (answers ans q0).map fun x => (.int ((x.1 : Int) + 1), x.2.build), q0⟩, false⟩ := by
    have h1 := h.server
    have h2 := h.serverAlive
    cases hs : Y.server
    rw [hs] at h1 h2
    simp only at h1 h2
    rw [h1, h2]
  have hG : T ++ List.replicate ((dataReceived (serverHandle env (lucks j)) ⟨Y.server.buffer, ⟨⟨(oneByOne env lucks ms heap T).heap,
      (oneByOne env lucks ms heap T).bound j⟩, (answers ans q0).map fun x => (.int ((x.1 : Int) + 1), x.2.build), q0⟩, false⟩
      (((bytesOf (fwd (ms j) n)).drop Y.arrived).take k)).st.count - q0) j <+: turns := by
    rw [← hbuf, ← hto]
    exact hT
  obtain ⟨q, buf', s', h1, h2, ⟨ans', g1, g2, g3, g4, g5, g6⟩, h4⟩ := Pipe.receiveGuarded (handle := serverHandle env (lucks j)) (decodes_fwd hC hn)
    (G := fun s => T ++ List.replicate (s.count - q0) j <+: turns)
    (J := fun q s => ∃ ans' : Nat → List Op, q0 ≤ q ∧ (oneByOne env lucks ms heap (T ++ List.replicate (q - q0) j)).done j = q ∧
      Account ms (oneByOne env lucks ms heap (T ++ List.replicate (q - q0) j)) j ans' ∧ (∀ k < q0, ans' k = ans k) ∧
      s = ⟨⟨(oneByOne env lucks ms heap (T ++ List.replicate (q - q0) j)).heap, (oneByOne env lucks ms heap (T ++ List.replicate (q - q0) j)).bound j⟩,
        (answers ans' q).map fun x => (.int ((x.1 : Int) + 1), x.2.build), q⟩ ∧
      ∀ i, i ≠ j → (oneByOne env lucks ms heap (T ++ List.replicate (q - q0) j)).bound i = (oneByOne env lucks ms heap T).bound i ∧
        (oneByOne env lucks ms heap (T ++ List.replicate (q - q0) j)).done i = (oneByOne env lucks ms heap T).done i ∧
        (oneByOne env lucks ms heap (T ++ List.replicate (q - q0) j)).sent i = (oneByOne env lucks ms heap T).sent i)
    (fun s m hg => replicate_prefix (by have := count_le (env := env) (luck := lucks j) s m; omega) hg)
    (fun q s x hx hp hg => by
      obtain ⟨ans', g1, g2, g3, g4, g5, g6⟩ := hp
      have hlt : q < n := by
        have := (List.getElem?_eq_some_iff.mp hx).1
        rwa [fwd, upto_length hn] at this
      have hm := List.getElem?_eq_getElem (show q < (ms j).length by omega)
      rw [fwd, upto_get hn hlt hm] at hx
      have hpre : T ++ List.replicate (q - q0) j <+: turns := by
        refine replicate_prefix ?_ hg
        have := count_le (env := env) (luck := lucks j) s x.2
        rw [g5] at this
        rw [g5]
        simp only at this ⊢
        omega
      obtain ⟨ans2, e1, e2, e3, e4, e5⟩ := entry_turn ho hnc hpre g3 (m := (ms j)[q]) (by rw [g2]; exact hm)
      have hrep : T ++ List.replicate (q - q0) j ++ [j] = T ++ List.replicate (q + 1 - q0) j := by
        rw [show q + 1 - q0 = (q - q0) + 1 by omega, List.replicate_succ', List.append_assoc]
      rw [g2] at e2
      rw [hrep] at e1 e5
      rw [hrep, g2] at e3 e4
      have hserve := e4 ((q : Int) + 1) none (idRange_succ hC (by omega)) rfl
      have hfin : serverHandle env (lucks j) s x.2 = (⟨⟨(oneByOne env lucks ms heap (T ++ List.replicate (q + 1 - q0) j)).heap,
          (oneByOne env lucks ms heap (T ++ List.replicate (q + 1 - q0) j)).bound j⟩,
          (answers ans2 (q + 1)).map fun x => (.int ((x.1 : Int) + 1), x.2.build), q + 1⟩, false) := by
        rw [← Option.some.inj hx, g5]
        simp only [serverHandle, hserve]
        rw [answers, answers_agree e2]
        simp only [List.map_append, List.map_map, Function.comp_def]
      rw [hfin]
      refine ⟨rfl, ans2, by omega, e3, e1, fun k hk => by rw [e2 k (by omega), g4 k hk], rfl, fun i hi => ?_⟩
      obtain ⟨a1, a2, a3⟩ := e5 i hi
      obtain ⟨b1, b2, b3⟩ := g6 i hi
      exact ⟨a1.trans b1, a2.trans b2, a3.trans b3⟩)
    h.pf ⟨ans, Nat.le_refl _, by simpa using hq0, by simpa using hE, fun _ _ => rfl, by simp, fun i hi => by simp⟩ k hG
  have hstep : Y.step env (lucks j) app fuel c (.out k) =
      { Y with server := ⟨buf', s', false⟩, arrived := min (Y.arrived + k) (bytesOf (fwd (ms j) n)).length } := by
    simp only [Concurrent.Sys.step, hto]
    rw [hbuf, h2]
  refine ⟨q, ans', g1, ?_, g2, g3, ?_, g6⟩
  · rw [hstep]
    simp only [g5]
  · rw [hstep]
    have hql : q ≤ (ms j).length := by
      have := h4.le
      rw [fwd, upto_length hn] at this
      omega
    have hagree := answers_agree (q := q0) g4
    obtain ⟨M, hM, hD⟩ := bck_grow g3.common g1 hql
    have hb0 : bck ans' q0 = bck ans q0 := by unfold bck; rw [hagree]
    have hrlen : r ≤ (answers ans q0).length := by
      have := h.pb.le
      rwa [bck, List.length_map] at this
    refine ⟨h.alive, rfl, h4, ?_, by rw [g5], answered_later h.client ?_⟩
    · rw [hM, hb0]
      exact h.pb.grow hD
    · rw [answers_quiet (q := q0) (fun k hk => hE.quiet k (by rw [hq0]; exact hk)) (by omega)]
      obtain ⟨M', hM'⟩ := answers_prefix (ans := ans') (show q0 ≤ (ms j).length by omega)
      rw [hM', hagree, List.take_append_of_le_length hrlen]

/-! ### All connections -/

/-- The books are right. -/
structure Good (ms : Nat → List Msg) (c : Nat) (X : Many) (B : Books) : Prop where
  heap : X.heap = B.heap
  each : ∀ j, ∃ ans n r, Account ms B j ans ∧
    Concurrent.Whole (ms j) (fun _ => ⟨B.heap, B.bound j⟩) ans c n (B.done j) r (seeing (X.ends j) X.heap)

theorem good_start (hms : ∀ j, (ms j).length < 2 ^ 31 - 1) (hP : ∀ j, ∀ m ∈ ms j, Proper m) (c : Nat) :
    Good ms c (start c heap) (oneByOne env lucks ms heap []) := by
  refine ⟨rfl, fun j => ⟨fun _ => [], 0, 0, ⟨?_, ?_, fun _ _ => rfl, rfl⟩, ?_⟩⟩
  · exact ⟨hms j, fun m hm => (hP j m hm).id, fun m hm => (hP j m hm).wf, fun m hm => (hP j m hm).size, fun m hm => (hP j m hm).kind,
      fun m hm => (hP j m hm).plain, fun _ _ _ _ => rfl, fun m hm => controls_decoded (hP j m hm).uncritical, fun _ _ _ => nofun,
      fun _ _ => ⟨[], [], rfl, Nat.zero_le _, nofun⟩⟩
  · intro k m hm
    exact ⟨by simp, by simp, by simp⟩
  · exact Concurrent.whole_start (S := fun _ => ⟨heap, none⟩) c

/-- Another tree. -/
theorem whole_seeing {l : List Msg} {h h' : Tree.Heap} {b : Option Nat} {ans : Nat → List Op} {c n q r : Nat} {Y : Concurrent.Sys}
    (hw : Concurrent.Whole l (fun _ => ⟨h, b⟩) ans c n q r (seeing Y h)) : Concurrent.Whole l (fun _ => ⟨h', b⟩) ans c n q r (seeing Y h') := by
  refine ⟨hw.alive, hw.serverAlive, hw.pf, hw.pb, ?_, hw.client⟩
  have := hw.server
  simp only [seeing, Serving.mk.injEq, State.mk.injEq] at this ⊢
  exact ⟨⟨trivial, this.1.2⟩, this.2⟩

theorem entry_other {B B' : Books} {j : Nat} {ans : Nat → List Op} (h : Account ms B j ans) (hd : B'.done j = B.done j) (hs : B'.sent j = B.sent j) :
    Account ms B' j ans :=
  ⟨h.common, h.shape, by rw [hd]; exact h.quiet, by rw [hd, hs]; exact h.sent⟩

theorem good_step (ho : Orderly env lucks heap ms turns) (hnc : ∀ j, ∀ m ∈ ms j, m.controls = none) {T : List Nat} {apps : Nat → App} {fuel c : Nat}
    {X : Many} (happ : ∀ j, Collecting c (apps j)) (h : Good ms c X (oneByOne env lucks ms heap T)) (e : Nat × Concurrent.Event)
    (he : ∀ x, e.2 = .call x → Requesting c x)
    (hG : ∀ j, Within (ms j) c ((X.step env lucks apps fuel c e).ends j).client)
    (hT : T ++ List.replicate (((X.step env lucks apps fuel c e).ends e.1).server.st.count - (X.ends e.1).server.st.count) e.1 <+: turns) :
    Good ms c (X.step env lucks apps fuel c e)
      (oneByOne env lucks ms heap (T ++ List.replicate (((X.step env lucks apps fuel c e).ends e.1).server.st.count - (X.ends e.1).server.st.count) e.1)) := by
  obtain ⟨j, e⟩ := e
  obtain ⟨ans, n, r, hE, hW⟩ := h.each j
  have hends : (X.step env lucks apps fuel c (j, e)).ends j = (seeing (X.ends j) X.heap).step env (lucks j) (apps j) fuel c e := by
    simp [Many.step]
  have hheap : (X.step env lucks apps fuel c (j, e)).heap = ((seeing (X.ends j) X.heap).step env (lucks j) (apps j) fuel c e).server.st.state.heap := rfl
  have hother : ∀ i, i ≠ j → (X.step env lucks apps fuel c (j, e)).ends i = X.ends i := fun i hi => by simp [Many.step, hi]
  have hGj := hG j
  rw [hends] at hGj
  simp only [hends] at hT ⊢
  have hcnt : (X.ends j).server.st.count = (seeing (X.ends j) X.heap).server.st.count := rfl
  rw [hcnt] at hT ⊢
  have hself : ∀ Y : Concurrent.Sys, seeing Y Y.server.st.state.heap = Y := fun Y => rfl
  by_cases hout : ∃ k, e = .out k
  · obtain ⟨k, rfl⟩ := hout
    obtain ⟨q, ans', h1, h2, h3, h4, h5, h6⟩ := whole_out ho hnc hE hW k hT
    rw [h2]
    have hst := h5.server
    have hh : (X.step env lucks apps fuel c (j, .out k)).heap =
        (oneByOne env lucks ms heap (T ++ List.replicate (q - (seeing (X.ends j) X.heap).server.st.count) j)).heap := by
      rw [hheap, hst]
    refine ⟨hh, fun i => ?_⟩
    by_cases hi : i = j
    · subst hi
      refine ⟨ans', n, r, h4, ?_⟩
      rw [h3, hends, hheap, hself]
      exact h5
    · obtain ⟨a, n', r', hE', hW'⟩ := h.each i
      obtain ⟨g1, g2, g3⟩ := h6 i hi
      refine ⟨a, n', r', entry_other hE' g2 g3, ?_⟩
      rw [g1, g2, hother i hi, hh]
      rw [h.heap] at hW'
      exact whole_seeing hW'
  · have hne : ∀ k, e ≠ .out k := fun k hk => hout ⟨k, hk⟩
    have hserver : ((seeing (X.ends j) X.heap).step env (lucks j) (apps j) fuel c e).server = (seeing (X.ends j) X.heap).server := by
      cases e with
      | call x => rfl
      | out k => exact absurd rfl (hne k)
      | back k => rfl
    have hh : (X.step env lucks apps fuel c (j, e)).heap = X.heap := by rw [hheap, hserver]; rfl
    rw [hserver, Nat.sub_self, List.replicate_zero, List.append_nil]
    refine ⟨by rw [hh, h.heap], fun i => ?_⟩
    by_cases hi : i = j
    · subst hi
      obtain ⟨n', r', h'⟩ := Concurrent.whole_other hE.common hE.shape (happ i) hW e he hne hGj
      refine ⟨ans, n', r', hE, ?_⟩
      rw [hends, hheap, hself]
      exact h'
    · rw [hother i hi, hh]
      exact h.each i

theorem many_within {l : List Msg} {apps : Nat → App} {fuel c j : Nat} {X : Many} {e : Nat × Concurrent.Event}
    (h : Within l c ((X.step env lucks apps fuel c e).ends j).client) : Within l c (X.ends j).client := by
  unfold Many.step at h
  simp only at h
  split at h
  · rename_i hj
    subst hj
    exact step_within (Y := seeing (X.ends e.1) X.heap) h
  · exact h

theorem many_run_within {l : List Msg} {apps : Nat → App} {fuel c j : Nat} {X : Many} {es : List (Nat × Concurrent.Event)}
    (h : Within l c ((X.run env lucks apps fuel c es).ends j).client) : Within l c (X.ends j).client := by
  induction es generalizing X with
  | nil => exact h
  | cons e es ih => exact many_within (ih h)

theorem good_run (ho : Orderly env lucks heap ms turns) (hnc : ∀ j, ∀ m ∈ ms j, m.controls = none) {T : List Nat} {apps : Nat → App} {fuel c : Nat}
    {X : Many} (happ : ∀ j, Collecting c (apps j)) (h : Good ms c X (oneByOne env lucks ms heap T)) (es : List (Nat × Concurrent.Event))
    (he : ∀ j x, (j, .call x) ∈ es → Requesting c x)
    (hG : ∀ j, Within (ms j) c ((X.run env lucks apps fuel c es).ends j).client)
    (hT : T ++ turnsOf env lucks apps fuel c X es <+: turns) :
    Good ms c (X.run env lucks apps fuel c es) (oneByOne env lucks ms heap (T ++ turnsOf env lucks apps fuel c X es)) := by
  induction es generalizing X T with
  | nil =>
    rw [turnsOf, List.append_nil]
    exact h
  | cons e es ih =>
    rw [turnsOf, ← List.append_assoc] at hT ⊢
    refine ih (good_step ho hnc happ h e (fun x hx => he e.1 x ?_) (fun j => many_run_within (hG j)) ?_) (fun j x hx => he j x (List.mem_cons_of_mem _ hx)) hG hT
    · rw [← hx]; exact List.mem_cons_self
    · exact List.IsPrefix.trans (List.prefix_append ..) hT

/-! ### When -/

theorem run_append (apps : Nat → App) (fuel c : Nat) (X : Many) (es es' : List (Nat × Concurrent.Event)) :
    X.run env lucks apps fuel c (es ++ es') = (X.run env lucks apps fuel c es).run env lucks apps fuel c es' := List.foldl_append

theorem turnsOf_append (apps : Nat → App) (fuel c : Nat) (X : Many) (es es' : List (Nat × Concurrent.Event)) :
    turnsOf env lucks apps fuel c X (es ++ es') =
      turnsOf env lucks apps fuel c X es ++ turnsOf env lucks apps fuel c (X.run env lucks apps fuel c es) es' := by
  induction es generalizing X with
  | nil => rfl
  | cons e es ih => rw [List.cons_append, turnsOf, turnsOf, ih, List.append_assoc]; rfl

theorem step_count (apps : Nat → App) (fuel c : Nat) (X : Many) (e : Nat × Concurrent.Event) (j : Nat) :
    (X.ends j).server.st.count + (List.replicate (((X.step env lucks apps fuel c e).ends e.1).server.st.count - (X.ends e.1).server.st.count) e.1).count j =
      ((X.step env lucks apps fuel c e).ends j).server.st.count := by
  by_cases hj : j = e.1
  · subst hj
    rw [List.count_replicate_self]
    suffices h : (X.ends e.1).server.st.count ≤ ((X.step env lucks apps fuel c e).ends e.1).server.st.count by omega
    obtain ⟨j, e⟩ := e
    have hends : (X.step env lucks apps fuel c (j, e)).ends j = (seeing (X.ends j) X.heap).step env (lucks j) (apps j) fuel c e := by
      simp [Many.step]
    simp only [hends]
    have hcnt : (X.ends j).server.st.count = (seeing (X.ends j) X.heap).server.st.count := rfl
    rw [hcnt]
    generalize seeing (X.ends j) X.heap = Y
    cases e with
    | call x => exact Nat.le_refl _
    | back k => exact Nat.le_refl _
    | out k =>
      show _ ≤ Serving.count (dataReceived (serverHandle env (lucks j)) Y.server _).st
      unfold dataReceived
      split
      · exact Nat.le_refl _
      · rename_i hd
        exact pump_guard (handle := serverHandle env (lucks j))
          (G := fun s => s.count ≤ (pump (serverHandle env (lucks j)) { Y.server with buffer := Y.server.buffer ++ _ }).st.count)
          (fun s m hs => Nat.le_trans (count_le s m) hs) _ { Y.server with buffer := Y.server.buffer ++ _ } (Nat.le_refl _) (Nat.le_refl _)
  · rw [List.count_replicate, if_neg (by simpa using fun h => hj h.symm)]
    simp [Many.step, hj]

/-- The turns that a client had. -/
theorem turns_count (apps : Nat → App) (fuel c : Nat) (X : Many) (es : List (Nat × Concurrent.Event)) (j : Nat) :
    (X.ends j).server.st.count + (turnsOf env lucks apps fuel c X es).count j = ((X.run env lucks apps fuel c es).ends j).server.st.count := by
  induction es generalizing X with
  | nil => rfl
  | cons e es ih =>
    rw [turnsOf, List.count_append, ← Nat.add_assoc, step_count, ih]
    rfl

/-- Who has been told something had a turn. -/
theorem told_turn {B : Books} {j : Nat} {ans : Nat → List Op} (hE : Account ms B j ans) {S : Nat → State} {c n r : Nat} {Y : Concurrent.Sys}
    (h : Concurrent.Whole (ms j) S ans c n (B.done j) r Y) {k : Nat} {x : Int × Client.Pending × Obj}
    (hx : (asked c Y.client.log)[k]? = some x) (ht : told x.2.1.d Y.client.log ≠ []) : k < B.done j := by
  obtain ⟨hn, hq⟩ := Concurrent.whole_le h
  obtain ⟨-, -, -, hd, -⟩ := h.client.1.each k _ hx
  rw [hd, h.client.1.told k _ hx] at ht
  have hg : got (ms j) ans r k ≠ [] := fun h0 => ht (by rw [h0]; rfl)
  unfold got at hg
  obtain ⟨y, hy⟩ := List.exists_mem_of_ne_nil _ hg
  obtain ⟨z, hz, -⟩ := List.mem_map.mp hy
  obtain ⟨hz1, hz2⟩ := List.mem_filter.mp hz
  have hz3 := List.mem_of_mem_take hz1
  rw [answers_quiet hE.quiet (by omega)] at hz3
  have := (answers_mem hz3).1
  rw [show z.1 = k by simpa using hz2] at this
  exact this

end
end Verif.Shared
