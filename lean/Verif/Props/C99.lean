import Verif.Lemmas.Shared
import Verif.Props.C98
/-
C99  Several clients of one server: as if their requests had been handled one after the other.

Any number of `LDAPClient`s are connected to one server; each connection has its own `LDAPServer` protocol, and all protocols have
the same tree.  Every application makes requests when it likes, without waiting for answers, and the networks cut and interleave all
streams of octets as they like.

`one_order_partial`: there is one order of all requests, in which those of a client come in the order in which it made them, such that
at every moment the tree, the user bound at each connection and everything sent on each connection are what one gets by handing the
requests in this order, one at a time, to the server; and what each Deferred or handler has been told is the beginning of what is
answered to its request there.  No connection is dropped.

`all_handled_partial`: once everything of a client has arrived, all its requests have had their turn, and each Deferred has been told
exactly the answers that its request gets in this order.

`real_time_partial`: the order respects time: at every moment, a request that was answered has had its turn, and a request that was not
made has not; what was answered before another request was made comes before it.

Partial: the requests are those of `Spec.Passable` (in the state in which they are handled), made with `send`, `bind` and, for searches,
`send_multiResponse` and `send_multiResponse_ex`; with abandon requests it fails, as C98 shows for one client.
-/
namespace Verif.C99
open Verif.Ldap Verif.Spec Verif.Server Verif.Shared
open Verif.Concurrent hiding start
open Verif.ProxySession (answers answers_mem fwd bck upto_length)
open Verif.Client (App Pending Note)

variable {env : Env} {lucks : Nat → Nat → Luck} {apps : Nat → App} {fuel c : Nat} {heap : Tree.Heap} {es : List (Nat × Concurrent.Event)}
  {ms : Nat → List Msg}

theorem no_controls {l : List Msg} {x : List (Int × Pending × Obj)} (h : Messages l x) : ∀ m ∈ l, m.controls = none := by
  intro m hm
  unfold Messages at h
  have : (m.id, m.op.build, m.controls) ∈ l.map fun m => (m.id, m.op.build, m.controls) := List.mem_map.mpr ⟨m, hm, rfl⟩
  rw [h] at this
  obtain ⟨y, -, hy⟩ := List.mem_map.mp this
  simp only [Prod.mk.injEq] at hy
  exact hy.2.2.symm

/-- The books are right at every moment. -/
theorem run_good (happ : ∀ j, Collecting c (apps j)) (es es' : List (Nat × Concurrent.Event)) (hes : ∀ j x, (j, .call x) ∈ es ++ es' → Requesting c x)
    (hm : ∀ j, Messages (ms j) (asked c (((start c heap).run env lucks apps fuel c (es ++ es')).ends j).client.log))
    (ho : Orderly env lucks heap ms (turnsOf env lucks apps fuel c (start c heap) (es ++ es'))) :
    Good ms c ((start c heap).run env lucks apps fuel c es) (oneByOne env lucks ms heap (turnsOf env lucks apps fuel c (start c heap) es)) := by
  have hG : ∀ j, Within (ms j) c (((start c heap).run env lucks apps fuel c es).ends j).client := by
    intro j
    have h1 := hm j
    rw [run_append] at h1
    refine many_run_within (X := (start c heap).run env lucks apps fuel c es) (es := es') (env := env) (lucks := lucks) (apps := apps) (fuel := fuel) ?_
    unfold Messages at h1
    unfold Within
    have h2 := congrArg (List.map fun x : Int × Obj × Option (List Control) => x.2.1) h1
    rw [List.map_map, List.map_map] at h2
    exact ⟨[], by rw [List.append_nil]; exact h2.symm⟩
  have h := good_run (T := []) ho (fun j => no_controls (hm j)) happ (good_start ho.few ho.proper c) es
    (fun j x hx => hes j x (List.mem_append_left _ hx)) hG (by rw [List.nil_append, turnsOf_append]; exact List.prefix_append ..)
  rwa [List.nil_append] at h

/-- What is sent to a client, in the terms of the lemmas. -/
theorem sent_eq {j : Nat} {B : Books} {ans : Nat → List Op} (hE : Account ms B j ans) {S : Nat → State} {n r : Nat} {Y : Concurrent.Sys}
    (h : Concurrent.Whole (ms j) S ans c n (B.done j) r Y) (hm : Messages (ms j) (asked c Y.client.log)) :
    n = (ms j).length ∧ B.sent j = (answers ans (ms j).length).map fun x => (.int ((x.1 : Int) + 1), x.2.build) := by
  obtain ⟨hn, hq⟩ := Concurrent.whole_le h
  unfold Messages at hm
  have hlen : n = (ms j).length := by
    rw [← h.client.1.asked]
    simpa using (congrArg List.length hm).symm
  refine ⟨hlen, ?_⟩
  rw [hE.sent, answers_quiet (N := (ms j).length) hE.quiet (by omega)]
  apply List.map_congr_left
  intro x hx
  have hk := (answers_mem hx).1
  have hk' : x.1 < (asked c Y.client.log).length := by rw [h.client.1.asked]; omega
  obtain ⟨m, hm1, hm2, -⟩ := h.client.1.each x.1 _ (List.getElem?_eq_getElem hk')
  have hx' := congrArg (·[x.1]?) hm
  simp only [List.getElem?_map, hm1, List.getElem?_eq_getElem hk', Option.map_some, Option.some.injEq, Prod.mk.injEq] at hx'
  simp only [hm1, Option.map_some, Option.getD_some, hx'.1, hm2]

/-- One order for all. -/
theorem one_order_partial (happ : ∀ j, Collecting c (apps j)) (hes : ∀ j x, (j, .call x) ∈ es → Requesting c x)
    (hm : ∀ j, Messages (ms j) (asked c (((start c heap).run env lucks apps fuel c es).ends j).client.log))
    (ho : Orderly env lucks heap ms (turnsOf env lucks apps fuel c (start c heap) es)) :
    let X := (start c heap).run env lucks apps fuel c es
    let B := oneByOne env lucks ms heap (turnsOf env lucks apps fuel c (start c heap) es)
    X.heap = B.heap ∧ ∀ j, ((X.ends j).dead = false ∧ (X.ends j).server.dead = false) ∧
      (X.ends j).server.st.state.bound = B.bound j ∧ (X.ends j).server.st.sent = B.sent j ∧ (X.ends j).server.st.count = B.done j ∧
      ∀ id p op, (id, p, op) ∈ asked c (X.ends j).client.log →
        ∃ rs, rs <+: answersTo id (B.sent j) ∧ Each (fun r n => Client.Answer [] c p r none [n]) rs (told p.d (X.ends j).client.log) := by
  have h := run_good happ es [] (by rwa [List.append_nil]) (by rwa [List.append_nil]) (by rwa [List.append_nil])
  refine ⟨h.heap, fun j => ?_⟩
  obtain ⟨ans, n, r, hE, hW⟩ := h.each j
  obtain ⟨hlen, hsent⟩ := sent_eq hE hW (hm j)
  have hst := hW.server
  have hst' := congrArg (fun s : ProxySession.Serving => (s.state.bound, s.sent, s.count)) hst
  simp only [Prod.mk.injEq] at hst'
  obtain ⟨hn, hq⟩ := Concurrent.whole_le hW
  refine ⟨⟨hW.alive, hW.serverAlive⟩, hst'.1, ?_, hst'.2.2, fun id p op hx => ?_⟩
  · rw [hsent, answers_quiet (N := (ms j).length) hE.quiet (by omega)]
    exact hst'.2.1
  · rw [hsent]
    exact Concurrent.told_prefix hW.client hx

/-- Once everything of a client has arrived. -/
theorem all_handled_partial (happ : ∀ j, Collecting c (apps j)) (hes : ∀ j x, (j, .call x) ∈ es → Requesting c x)
    (hm : ∀ j, Messages (ms j) (asked c (((start c heap).run env lucks apps fuel c es).ends j).client.log))
    (ho : Orderly env lucks heap ms (turnsOf env lucks apps fuel c (start c heap) es)) :
    let X := (start c heap).run env lucks apps fuel c es
    let B := oneByOne env lucks ms heap (turnsOf env lucks apps fuel c (start c heap) es)
    ∀ j, (X.ends j).arrived = (octetsOut c (X.ends j).client.log).length → (X.ends j).returned = (X.ends j).toClient.length →
      B.done j = (ms j).length ∧ ∀ id p op, (id, p, op) ∈ asked c (X.ends j).client.log →
        Each (fun r n => Client.Answer [] c p r none [n]) (answersTo id (B.sent j)) (told p.d (X.ends j).client.log) ∧
        (answersTo id (B.sent j) ≠ [] → ((X.ends j).client.conns c).onwire.lookup id = none) := by
  have h := run_good happ es [] (by rwa [List.append_nil]) (by rwa [List.append_nil]) (by rwa [List.append_nil])
  intro X B j ha hr
  obtain ⟨ans, n, r, hE, hW⟩ := h.each j
  obtain ⟨hlen, hsent⟩ := sent_eq hE hW (hm j)
  subst hlen
  have hq : B.done j = (ms j).length := by
    have := hW.pf.all (by
      show _ ≤ (X.ends j).arrived
      rw [ha]
      show _ ≤ (octetsOut c (seeing (X.ends j) X.heap).client.log).length
      rw [hW.client.1.wrote]
      exact Nat.le_refl _)
    rw [← upto_length (Nat.le_refl (ms j).length), ← fwd]
    exact this.1
  have hto : (X.ends j).toClient = Conn.bytesOf (bck ans (B.done j)) := by
    show (seeing (X.ends j) X.heap).toClient = _
    rw [Concurrent.Sys.toClient, hW.server, ProxySession.octets_answers]
  have hr' : r = (answers ans (ms j).length).length := by
    have := hW.pb.all (by show _ ≤ (X.ends j).returned; rw [hr, hto]; exact Nat.le_refl _)
    rw [this.1, bck, List.length_map, ← hq]
  subst hr'
  refine ⟨hq, fun id p op hx => ?_⟩
  rw [hsent]
  exact Concurrent.told_all hE.shape hW.client hx

/-- The order respects time. -/
theorem real_time_partial (happ : ∀ j, Collecting c (apps j)) (es es' : List (Nat × Concurrent.Event))
    (hes : ∀ j x, (j, .call x) ∈ es ++ es' → Requesting c x)
    (hm : ∀ j, Messages (ms j) (asked c (((start c heap).run env lucks apps fuel c (es ++ es')).ends j).client.log))
    (ho : Orderly env lucks heap ms (turnsOf env lucks apps fuel c (start c heap) (es ++ es'))) :
    let X := (start c heap).run env lucks apps fuel c es
    let T := turnsOf env lucks apps fuel c (start c heap) es
    T <+: turnsOf env lucks apps fuel c (start c heap) (es ++ es') ∧ ∀ j,
      (∀ k x, (asked c (X.ends j).client.log)[k]? = some x → told x.2.1.d (X.ends j).client.log ≠ [] → k < T.count j) ∧
      T.count j ≤ (asked c (X.ends j).client.log).length := by
  have h := run_good happ es es' hes hm ho
  intro X T
  refine ⟨by rw [turnsOf_append]; exact List.prefix_append .., fun j => ?_⟩
  obtain ⟨ans, n, r, hE, hW⟩ := h.each j
  have hcnt : T.count j = (oneByOne env lucks ms heap T).done j := by
    have h1 := turns_count (env := env) (lucks := lucks) apps fuel c (start c heap) es j
    have h2 := congrArg ProxySession.Serving.count hW.server
    have h3 : ((start c heap).ends j).server.st.count = 0 := rfl
    rw [h3, Nat.zero_add] at h1
    exact h1.trans h2
  rw [hcnt]
  obtain ⟨hn, hq⟩ := Concurrent.whole_le hW
  refine ⟨fun k x hx ht => told_turn hE hW hx ht, ?_⟩
  have := hW.client.1.asked
  have h5 : (asked c (X.ends j).client.log).length = n := this
  rw [h5]
  exact hq

/-! ### Example -/

def look : Op := .search (ascii "dc=a") 2 0 0 0 false (.not (.present (ascii "x"))) []

/-- The first client searches twice; in between the second one deletes an entry. -/
def requests : Nat → List Msg
  | 0 => [⟨1, look, none⟩, ⟨2, look, none⟩]
  | 1 => [⟨1, .delete (ascii "cn=c,cn=b,dc=a"), none⟩]
  | _ => []

def history : List (Nat × Concurrent.Event) :=
  [(0, .call (.sendMulti 0 look.build true)), (0, .out 10), (1, .call (.send 0 (Op.delete (ascii "cn=c,cn=b,dc=a")).build none)),
   (0, .out 1000), (1, .out 5), (0, .call (.sendMultiEx 0 look.build none true)), (1, .out 1000), (0, .out 1000), (0, .back 7), (1, .back 1000),
   (0, .back 1000)]

theorem history_ok : ∀ j x, (j, .call x) ∈ history → Requesting 0 x := by
  intro j x hx
  simp only [history, List.mem_cons, Prod.mk.injEq, Concurrent.Event.call.injEq, reduceCtorEq, and_false, List.not_mem_nil, or_false, false_or] at hx
  rcases hx with ⟨-, rfl⟩ | ⟨-, rfl⟩ | ⟨-, rfl⟩
  · exact .sendMulti
  · exact .send .delete nofun
  · exact .sendMultiEx

def finished : Many := (start 0 C40.heap).run C40.env (fun _ _ => C40.luck) (fun _ => C98.collector) 0 0 history

def order : List Nat := turnsOf C40.env (fun _ _ => C40.luck) (fun _ => C98.collector) 0 0 (start 0 C40.heap) history

theorem order_eq : order = [0, 1, 0] := by decide +kernel

/-- The others do nothing. -/
theorem others (j : Nat) : finished.ends (j + 2) = (start 0 C40.heap).ends (j + 2) := by
  unfold finished history
  simp [Many.run, Many.step]

theorem requests_asked : ∀ j, Messages (requests j) (asked 0 (finished.ends j).client.log)
  | 0 => C98.messages_of _ _ (by decide +kernel) (by decide +kernel)
  | 1 => C98.messages_of _ _ (by decide +kernel) (by decide +kernel)
  | j + 2 => by rw [others]; exact rfl

def states : List Books := (List.range 4).map fun k => oneByOne C40.env (fun _ _ => C40.luck) requests C40.heap (order.take k)

theorem states_calm : (states.all fun B => C92.calm ⟨B.heap, none⟩) = true := by decide +kernel

/-- The requests meet the hypotheses. -/
theorem requests_ok : Orderly C40.env (fun _ _ => C40.luck) C40.heap requests order := by
  have hone : ∀ j, ∀ m ∈ requests j, Proper m ∧ ∀ st, (∀ n ∈ st.heap, Fit (Utf8.encode n.entry.dn.text)) → Fits C40.luck st m.op.build none
    | 0, m, hm => by
      have : m.op = look ∧ (m.id = 1 ∨ m.id = 2) ∧ m.controls = none := by
        simp only [requests, List.mem_cons, List.not_mem_nil, or_false] at hm
        rcases hm with rfl | rfl <;> exact ⟨rfl, by decide, rfl⟩
      obtain ⟨h1, h2, h3⟩ := this
      refine ⟨⟨by omega, by rw [h1]; trivial, by rw [h1]; decide +kernel, by rw [h1]; exact .inl .search, by rw [h1]; nofun, by rw [h3]; nofun⟩, ?_⟩
      intro st hst
      rw [h1]
      exact ⟨fun e => by simp [Fit, C40.luck], hst, nofun, nofun, nofun⟩
    | 1, m, hm => by
      cases List.mem_singleton.mp hm
      exact ⟨⟨by decide, trivial, by decide +kernel, .inl .delete, nofun, nofun⟩,
        fun st hst => ⟨fun e => by simp [Fit, C40.luck], hst, nofun, nofun, nofun⟩⟩
    | j + 2, m, hm => by cases hm
  refine ⟨?_, fun j m hm => (hone j m hm).1, ?_⟩
  · intro j
    match j with
    | 0 => decide
    | 1 => decide
    | j + 2 => show 0 < 2 ^ 31 - 1; decide
  · intro T j hT m hm
    have hT' := List.prefix_iff_eq_take.mp hT
    have hcalm : C92.calm ⟨(oneByOne C40.env (fun _ _ => C40.luck) requests C40.heap T).heap, none⟩ = true := by
      refine List.all_eq_true.mp states_calm (oneByOne C40.env (fun _ _ => C40.luck) requests C40.heap T) ?_
      refine List.mem_map.mpr ⟨T.length, List.mem_range.mpr ?_, by rw [← hT']⟩
      have := hT.length_le
      rw [order_eq] at this
      simp only [List.length_cons, List.length_nil] at this
      omega
    obtain ⟨h1, h2⟩ := C92.calm_modest hcalm
    exact ⟨(hone j m (List.mem_of_getElem? hm)).2 _ h1, h2⟩

/-- The hypotheses hold for that history, also those about what has arrived; the first search gives four answers, the other one three. -/
example : Orderly C40.env (fun _ _ => C40.luck) C40.heap requests order ∧ Collecting 0 C98.collector ∧
    (∀ j x, (j, .call x) ∈ history → Requesting 0 x) ∧ (∀ j, Messages (requests j) (asked 0 (finished.ends j).client.log)) ∧ order = [0, 1, 0] ∧
    (∀ j, (finished.ends j).arrived = (octetsOut 0 (finished.ends j).client.log).length ∧ (finished.ends j).returned = (finished.ends j).toClient.length) ∧
    (List.range 2).map (fun d => (told d (finished.ends 0).client.log).length) = [4, 3] ∧ finished.heap ≠ C40.heap := by
  refine ⟨requests_ok, C98.collector_ok, history_ok, requests_asked, order_eq, ?_, by decide +kernel, by decide +kernel⟩
  intro j
  match j with
  | 0 => exact ⟨by decide +kernel, by decide +kernel⟩
  | 1 => exact ⟨by decide +kernel, by decide +kernel⟩
  | j + 2 => rw [others]; exact ⟨rfl, rfl⟩

end Verif.C99
