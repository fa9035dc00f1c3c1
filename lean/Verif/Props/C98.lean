import Verif.Lemmas.Concurrent
import Verif.Props.C92
/-
C98  Several requests under way at once: each gets its own answers.

An `LDAPClient` is connected to an `LDAPServer` with a tree.  The application makes requests when it likes, also from within the
callbacks and handlers that are told of answers; it does not wait for one request to be answered before it makes the next.  The
network cuts both streams of octets as it likes and delivers the pieces in any interleaving.

`own_answers_partial`: at every moment neither end has dropped the connection, and what each Deferred or handler has been told is
the beginning of what the server answers to that request, one by one and in order.

`all_answers_partial`: once everything written has arrived, each has been told exactly what the server answers to its request, the
client remembers no request that was answered, and the tree is the one that the server is left with.

`own_deferred_partial`: message ids and Deferreds are not shared between requests.

Partial: the requests are those of `Spec.Passable`, made with `send`, `bind` and, for searches, `send_multiResponse` and
`send_multiResponse_ex`.  With an abandon request the property fails: the server answers it, nobody waits for the answer, and the
client drops the connection with everything that is under way (`abandon_drops`).
-/
namespace Verif.C98
open Verif.Ldap Verif.Spec Verif.Server Verif.Concurrent
open Verif.ProxySession (Facts after facts fwd bck answers answers_mem upto_length idOf)
open Verif.Client (App Pending Note)

variable {env : Env} {lucks : Nat → Luck} {app : App} {fuel c : Nat} {st : State} {es : List Event} {ms : List Msg} {b : Bytes}

/-- What the run looks like, in the terms of the lemmas. -/
theorem run_whole (happ : Collecting c app) (hes : ∀ x, .call x ∈ es → Requesting c x)
    (hm : Messages ms (asked c ((start c st).run env lucks app fuel c es).client.log)) (hs : Session env lucks st ms)
    (hw : Wires (ms.map Msg.build) b) :
    ∃ S ans q r, Facts env lucks ms S ans ∧ (∀ k m, ms[k]? = some m → Shape m.op.build (ans k)) ∧
      Whole ms S ans c ms.length q r ((start c st).run env lucks app fuel c es) ∧
      direct env lucks st [b] = ⟨S ms.length, (answers ans ms.length).map fun x => (.int ((x.1 : Int) + 1), x.2.build), ms.length⟩ := by
  obtain ⟨S, ans, F, h0, hafter⟩ := facts hs hw
  have hsh : ∀ k m, ms[k]? = some m → Shape m.op.build (ans k) := fun k m hk =>
    shape hs hw F (fun k hk => by rw [hafter k hk]) hk
  have hstart := whole_start (ms := ms) (S := S) (ans := ans) c
  rw [h0] at hstart
  unfold Messages at hm
  have hG : Within ms c ((start c st).run env lucks app fuel c es).client := by
    unfold Within
    have h2 := congrArg (List.map fun x : Int × Obj × Option (List Control) => x.2.1) hm
    rw [List.map_map, List.map_map] at h2
    exact ⟨[], by rw [List.append_nil]; exact h2.symm⟩
  obtain ⟨n, q, r, h⟩ := whole_run F hsh happ hstart es hes hG
  have hlen : n = ms.length := by
    rw [← h.client.1.asked]
    simpa using (congrArg List.length hm).symm
  subst hlen
  refine ⟨S, ans, q, r, F, hsh, h, ?_⟩
  have := ProxySession.direct_after hs hw ms.length (b' := b) (by rwa [List.take_length]) (segs := [b]) (by simp)
  rw [this, hafter ms.length (Nat.le_refl _)]
  suffices hsent : ((answers ans ms.length).map fun x => (PyVal.int ((ms[x.1]?.map Msg.id).getD 0), x.2.build)) =
      (answers ans ms.length).map fun x => (.int ((x.1 : Int) + 1), x.2.build) by
    simp only [hsent]
  apply List.map_congr_left
  intro x hx
  have hk := (answers_mem hx).1
  have hk' : x.1 < (asked c ((start c st).run env lucks app fuel c es).client.log).length := by rw [h.client.1.asked]; exact hk
  obtain ⟨m, hm1, hm2, -⟩ := h.client.1.each x.1 _ (List.getElem?_eq_getElem hk')
  have hx' := congrArg (·[x.1]?) hm
  simp only [List.getElem?_map, hm1, List.getElem?_eq_getElem hk', Option.map_some, Option.some.injEq, Prod.mk.injEq] at hx'
  simp only [hm1, Option.map_some, Option.getD_some, hx'.1, hm2]

/-- Never anything else. -/
theorem own_answers_partial (happ : Collecting c app) (hes : ∀ x, .call x ∈ es → Requesting c x)
    (hm : Messages ms (asked c ((start c st).run env lucks app fuel c es).client.log)) (hs : Session env lucks st ms)
    (hw : Wires (ms.map Msg.build) b) :
    let Y := (start c st).run env lucks app fuel c es
    (Y.dead = false ∧ Y.server.dead = false) ∧ ∀ id p op, (id, p, op) ∈ asked c Y.client.log →
      ∃ rs, rs <+: answersTo id (direct env lucks st [b]).sent ∧
        Each (fun r n => Client.Answer [] c p r none [n]) rs (told p.d Y.client.log) := by
  obtain ⟨S, ans, q, r, F, hsh, h, hd⟩ := run_whole happ hes hm hs hw
  refine ⟨⟨h.alive, h.serverAlive⟩, fun id p op hx => ?_⟩
  rw [hd]
  exact told_prefix h.client hx

/-- Once everything has arrived. -/
theorem all_answers_partial (happ : Collecting c app) (hes : ∀ x, .call x ∈ es → Requesting c x)
    (hm : Messages ms (asked c ((start c st).run env lucks app fuel c es).client.log)) (hs : Session env lucks st ms)
    (hw : Wires (ms.map Msg.build) b) :
    let Y := (start c st).run env lucks app fuel c es
    Y.arrived = (octetsOut c Y.client.log).length → Y.returned = Y.toClient.length →
      Y.server.st.state = (direct env lucks st [b]).state ∧ ∀ id p op, (id, p, op) ∈ asked c Y.client.log →
        Each (fun r n => Client.Answer [] c p r none [n]) (answersTo id (direct env lucks st [b]).sent) (told p.d Y.client.log) ∧
        (answersTo id (direct env lucks st [b]).sent ≠ [] → (Y.client.conns c).onwire.lookup id = none) := by
  obtain ⟨S, ans, q, r, F, hsh, h, hd⟩ := run_whole happ hes hm hs hw
  intro Y ha hr
  have hq : q = ms.length := by
    have := h.pf.all (by show _ ≤ Y.arrived; rw [ha]; show _ ≤ (octetsOut c Y.client.log).length; rw [h.client.1.wrote]; exact Nat.le_refl _)
    rw [this.1, fwd, upto_length (Nat.le_refl _)]
  subst hq
  have hto : Y.toClient = Conn.bytesOf (bck ans ms.length) := by
    rw [Sys.toClient, h.server, ProxySession.octets_answers]
  have hr' : r = (answers ans ms.length).length := by
    have := h.pb.all (by show _ ≤ Y.returned; rw [hr, hto]; exact Nat.le_refl _)
    rw [this.1, bck, List.length_map]
  subst hr'
  refine ⟨by rw [hd]; show Y.server.st.state = _; rw [h.server], fun id p op hx => ?_⟩
  rw [hd]
  exact told_all hsh h.client hx

/-- Nothing is shared. -/
theorem own_deferred_partial (happ : Collecting c app) (hes : ∀ x, .call x ∈ es → Requesting c x)
    (hm : Messages ms (asked c ((start c st).run env lucks app fuel c es).client.log)) (hs : Session env lucks st ms)
    (hw : Wires (ms.map Msg.build) b) :
    let Y := (start c st).run env lucks app fuel c es
    (asked c Y.client.log).Pairwise fun x y => x.1 ≠ y.1 ∧ x.2.1.d ≠ y.2.1.d := by
  obtain ⟨S, ans, q, r, F, hsh, h, hd⟩ := run_whole happ hes hm hs hw
  rw [List.pairwise_iff_getElem]
  intro i j hi hj hij
  obtain ⟨_, _, h1, h2, -⟩ := h.client.1.each i _ (List.getElem?_eq_getElem hi)
  obtain ⟨_, _, h3, h4, -⟩ := h.client.1.each j _ (List.getElem?_eq_getElem hj)
  rw [h1, h2, h3, h4]
  omega

/-! ### Examples -/

/-- What the application does when the Deferred 1 is fired: it asks for one more entry. -/
def again : Op := .search (ascii "cn=b,dc=a") 0 0 0 0 false (.not (.present (ascii "x"))) []

/-- Searches are collected to their end. -/
def collector : App := fun log => match log.getLast? with
  | some (.handled _ (.result .searchResultDone ..) _) => ⟨[], true, false⟩
  | some (.fired 1 _) => ⟨[.sendMultiEx 0 again.build none true], false, false⟩
  | _ => ⟨[], false, false⟩

theorem collector_ok : Collecting 0 collector := by
  refine ⟨fun log x hx => ?_, fun log => ?_, fun log d op controls => ?_⟩
  · unfold collector at hx
    split at hx
    · cases hx
    · rw [List.mem_singleton.mp hx]; exact .sendMultiEx
    · cases hx
  · unfold collector; split <;> rfl
  · unfold collector
    rw [List.getLast?_concat]
    split
    · rename_i h; cases h; simp
    · rename_i h; cases h
    · rename_i h1 h2
      constructor
      · nofun
      · rintro ⟨t, code, mdn, msg, creds, rfl⟩
        exact absurd rfl (h1 _ _ _ _ _ _ _)

/-- A search and, before it is answered, an entry to be deleted; when that is done, one more search. -/
def requests : List Msg :=
  [⟨1, .search (ascii "dc=a") 2 0 0 0 false (.not (.present (ascii "x"))) [], none⟩,
   ⟨2, .delete (ascii "cn=c,cn=b,dc=a"), none⟩,
   ⟨3, again, none⟩]

def history : List Event :=
  [.call (.sendMulti 0 (Op.search (ascii "dc=a") 2 0 0 0 false (.not (.present (ascii "x"))) []).build true),
   .out 10,
   .call (.send 0 (Op.delete (ascii "cn=c,cn=b,dc=a")).build none),
   .out 40, .back 5, .out 1000, .back 20, .back 1000, .out 1000, .back 1000]

theorem history_ok : ∀ x, .call x ∈ history → Requesting 0 x := by
  intro x hx
  simp only [history, List.mem_cons, Event.call.injEq, reduceCtorEq, List.not_mem_nil, or_false, false_or] at hx
  rcases hx with rfl | rfl
  · exact .sendMulti
  · exact .send .delete nofun

/-- The end of that. -/
def finished : Sys := (start 0 C40.st).run C40.env (fun _ => C40.luck) collector 0 0 history

/-- Equality of searches with a negated filter for presence, and of requests that are octet strings. -/
def same : Obj → Obj → Bool
  | .oct c t v, .oct c' t' v' => decide (c = c' ∧ t = t' ∧ v = v')
  | .searchRequest t b s d n l y (.not u (.oct c w v)) as, .searchRequest t' b' s' d' n' l' y' (.not u' (.oct c' w' v')) as' =>
    decide (t = t' ∧ b = b' ∧ s = s' ∧ d = d' ∧ n = n' ∧ l = l' ∧ y = y' ∧ u = u' ∧ c = c' ∧ w = w' ∧ v = v' ∧ as = as')
  | _, _ => false

theorem same_eq {a b : Obj} (h : same a b = true) : a = b := by
  unfold same at h
  split at h
  · obtain ⟨rfl, rfl, rfl⟩ := of_decide_eq_true h; rfl
  · obtain ⟨rfl, rfl, rfl, rfl, rfl, rfl, rfl, rfl, rfl, rfl, rfl, rfl⟩ := of_decide_eq_true h; rfl
  · cases h

theorem messages_of : (ms : List Msg) → (l : List (Int × Pending × Obj)) → ms.length = l.length →
    (ms.zip l).all (fun x => decide (x.1.id = x.2.1) && same x.1.op.build x.2.2.2 && x.1.controls.isNone) = true → Messages ms l
  | [], [], _, _ => rfl
  | [], _ :: _, h, _ => by cases h
  | _ :: _, [], h, _ => by cases h
  | m :: ms, (i, p, o) :: l, h, ha => by
    rw [List.zip_cons_cons, List.all_cons, Bool.and_eq_true, Bool.and_eq_true, Bool.and_eq_true] at ha
    obtain ⟨⟨⟨h1, h2⟩, h3⟩, h4⟩ := ha
    have ih : Messages ms l := messages_of ms l (by simpa using h) h4
    unfold Messages at ih ⊢
    rw [List.map_cons, List.map_cons, ih]
    congr 1
    exact Prod.ext (of_decide_eq_true h1) (Prod.ext (same_eq h2) (Option.isNone_iff_eq_none.mp h3))

theorem requests_asked : Messages requests (asked 0 finished.client.log) :=
  messages_of _ _ (by decide +kernel) (by decide +kernel)

def states : List State :=
  (List.range 3).map fun k => match C92.wiresOf ((requests.take k).map Msg.build) with
    | some b => (direct C40.env (fun _ => C40.luck) C40.st [b]).state
    | none => C40.st

theorem states_calm : (states.all C92.calm) = true := by decide +kernel

/-- The session meets the hypotheses. -/
theorem requests_ok : Session C40.env (fun _ => C40.luck) C40.st requests := by
  refine ⟨by decide, ?_, ?_⟩
  · intro k m hm hu
    have hk : k < 3 := (List.getElem?_eq_some_iff.mp hm).1
    match k, hk with
    | 0, _ => cases hm; cases hu
    | 1, _ => cases hm; cases hu
    | 2, _ => cases hm; cases hu
  · intro k m b hm hb
    have hk : k < 3 := (List.getElem?_eq_some_iff.mp hm).1
    have hst : C92.calm (direct C40.env (fun _ => C40.luck) C40.st [b]).state = true := by
      refine List.all_eq_true.mp states_calm _ ?_
      refine List.mem_map.mpr ⟨k, List.mem_range.mpr hk, ?_⟩
      rw [C92.wires_iff.mp hb]
    generalize (direct C40.env (fun _ => C40.luck) C40.st [b]).state = s at hst ⊢
    obtain ⟨h1, h2⟩ := C92.calm_modest hst
    clear hb
    match k, hk with
    | 0, _ =>
      cases hm
      exact ⟨by decide, trivial, by decide +kernel, .inl .search, (by intro v h; cases h), (by intro cs h; cases h),
        ⟨fun e => by simp [Fit, C40.luck], h1, (by intro cs h; cases h), (by intro t n v h; cases h), (by intro t v d a h; cases h)⟩, h2⟩
    | 1, _ =>
      cases hm
      exact ⟨by decide, trivial, by decide +kernel, .inl .delete, (by intro v h; cases h), (by intro cs h; cases h),
        ⟨fun e => by simp [Fit, C40.luck], h1, (by intro cs h; cases h), (by intro t n v h; cases h), (by intro t v d a h; cases h)⟩, h2⟩
    | 2, _ =>
      cases hm
      exact ⟨by decide, trivial, by decide +kernel, .inl .search, (by intro v h; cases h), (by intro cs h; cases h),
        ⟨fun e => by simp [Fit, C40.luck], h1, (by intro cs h; cases h), (by intro t n v h; cases h), (by intro t v d a h; cases h)⟩, h2⟩

/-- The hypotheses hold for that history, also those about what has arrived; the three are told four, one and two things. -/
example : ∃ b, Wires (requests.map Msg.build) b ∧ Session C40.env (fun _ => C40.luck) C40.st requests ∧ Collecting 0 collector ∧
    (∀ x, .call x ∈ history → Requesting 0 x) ∧ Messages requests (asked 0 finished.client.log) ∧
    finished.arrived = (octetsOut 0 finished.client.log).length ∧ finished.returned = finished.toClient.length ∧
    (List.range 3).map (fun d => (told d finished.client.log).length) = [4, 1, 2] := by
  have hb : (C92.wiresOf (requests.map Msg.build)).isSome = true := by decide +kernel
  obtain ⟨b, hb⟩ := Option.isSome_iff_exists.mp hb
  exact ⟨b, C92.wires_iff.mpr hb, requests_ok, collector_ok, history_ok, requests_asked, by decide +kernel, by decide +kernel,
    by decide +kernel⟩

/-! ### Where it fails -/

/-- A search, an abandon request for it, and an entry to be deleted. -/
def abandoning : Sys :=
  (start 0 C40.st).run C40.env (fun _ => C40.luck) collector 0 0
    [.call (.sendMulti 0 again.build true), .call (.sendNoResponse 0 (Op.abandon 1).build none),
     .call (.send 0 (Op.delete (ascii "cn=c,cn=b,dc=a")).build none), .out 1000, .back 1000]

/-- The server knows no abandon requests and says so.  The client expects no answer to such a request; the answer raises a KeyError
and costs it the connection (ldapclient.py:182-211).  The entry is deleted, and the server has said so, but the Deferred of that request has
been told nothing. -/
theorem abandon_drops : abandoning.dead = true ∧ abandoning.server.st.state ≠ C40.st ∧ (asked 0 abandoning.client.log)[1]?.map (·.1) = some 3 ∧
    answersTo 3 abandoning.server.st.sent ≠ [] ∧ abandoning.returned = abandoning.toClient.length ∧ told 1 abandoning.client.log = [] := by
  refine ⟨by decide +kernel, by decide +kernel, by decide +kernel, ?_, by decide +kernel, ?_⟩
  · intro h
    have : (answersTo 3 abandoning.server.st.sent).length = 1 := by decide +kernel
    rw [h] at this
    cases this
  · have : (told 1 abandoning.client.log).length = 0 := by decide +kernel
    exact List.length_eq_zero_iff.mp this

end Verif.C98
