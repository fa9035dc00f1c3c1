import Verif.Lemmas.ServerSame
import Verif.Lemmas.Pipe
/-
A session with the server: what it answers to each request, whatever the message ids.
-/
namespace Verif.ProxySession
open Verif.Ldap Verif.Spec Verif.Server

theorem handAll_append {σ : Type} (h : Conn.Handler σ) (os os' : List Obj) (s : σ) : handAll h s (os ++ os') =
    if (handAll h s os).2 then handAll h s os else handAll h (handAll h s os).1 os' := by
  induction os generalizing s with
  | nil => rfl
  | cons o os ih =>
    rw [List.cons_append, handAll, handAll]
    split
    · rfl
    · exact ih _

/-- The message as it arrives. -/
def dm (m : Msg) : Obj := .message (.int m.id) (received m.op) (m.controls.map (·.map Control.decoded))

/-- All answers to the first `n` requests, each with the number of the request. -/
def answers (ans : Nat → List Op) : Nat → List (Nat × Op)
  | 0 => []
  | n + 1 => answers ans n ++ (ans n).map fun r => (n, r)

/-- The messages of a session: what each is like and what it is answered. -/
structure Common (ms : List Msg) (ans : Nat → List Op) : Prop where
  few : ms.length < 2 ^ 31 - 1
  id : ∀ m ∈ ms, IdRange m.id
  wf : ∀ m ∈ ms, m.op.WF
  size : ∀ m ∈ ms, m.op.size < 2 ^ 50
  kind : ∀ m ∈ ms, Answerable m.op.build ∨ m.op = .unbind
  plain : ∀ m ∈ ms, ∀ v, m.op ≠ .extRequest Client.startTLSOid v
  silent : ∀ k m, ms[k]? = some m → m.op = .unbind → ans k = []
  uncritical : ∀ m ∈ ms, checkControls (m.controls.map (·.map Control.decoded)) = .ok ()
  response : ∀ k < ms.length, ∀ r ∈ ans k, Response r
  order : ∀ k < ms.length, ∃ es fin : List Op, ans k = es ++ fin ∧ fin.length ≤ 1 ∧ ∀ r ∈ es, Merger.isFinal r.build = false

/-- With the states of a server that handles nothing else. -/
structure Facts (env : Env) (lucks : Nat → Luck) (ms : List Msg) (S : Nat → State) (ans : Nat → List Op) : Prop extends Common ms ans where
  serve : ∀ k m, ms[k]? = some m → ∀ i controls, IdRange i → checkControls controls = .ok () →
    serve env (lucks k) (S k) (.message (.int i) (received m.op) controls) = some ⟨S (k + 1), (ans k).map fun r => (.int i, r.build)⟩

theorem answerable_received {op : Op} (h : Answerable op.build) : Answerable (received op) := by
  cases op <;> first | exact h | constructor | cases h

theorem fits_received {luck : Luck} {st : State} {op : Op} (h : Fits luck st op.build none) : Fits luck st (received op) none := by
  cases op with
  | search => exact ⟨h.text, h.dns, h.controls, nofun, nofun⟩
  | modifyDN => exact ⟨h.text, h.dns, h.controls, nofun, nofun⟩
  | reference => exact ⟨h.text, h.dns, h.controls, nofun, nofun⟩
  | _ => exact h

theorem sizeSum_length (as : List Bytes) : as.length ≤ sizeSum octSize as ∧ ∀ k ∈ as, k.length ≤ sizeSum octSize as := by
  induction as with
  | nil => simp [sizeSum]
  | cons a as ih =>
    simp only [sizeSum, octSize, elementSize, List.length_cons]
    refine ⟨by omega, ?_⟩
    intro k hk
    rcases List.mem_cons.mp hk with rfl | hk
    · omega
    · have := ih.2 k hk; omega

theorem shortList_received {op : Op} (h : op.size < 2 ^ 50) : ShortList (received op) := by
  intro t b s d sl tl ty f as he
  cases op with
  | search base scope deref z1 z2 typ fil ats =>
    simp only [received, Obj.searchRequest.injEq] at he
    obtain ⟨-, -, -, -, -, -, -, -, rfl⟩ := he
    have := sizeSum_length ats
    simp only [Op.size, octSize, elementSize] at h
    refine ⟨by simp only [List.length_map]; omega, fun k hk => ?_⟩
    obtain ⟨k', hk', he⟩ := List.mem_map.mp hk
    cases he
    have := this.2 k hk'
    omega
  | _ => simp [received, Op.build] at he

theorem controls_decoded {cs : Option (List Control)} (h : ∀ l ∈ cs, ∀ c ∈ l, c.critical ≠ some true) :
    checkControls (cs.map (·.map Control.decoded)) = .ok () := by
  cases cs with
  | none => rfl
  | some l =>
    replace h := h l rfl
    show checkEach (l.map Control.decoded) = .ok ()
    induction l with
    | nil => rfl
    | cons c l ih =>
      have h1 := h c List.mem_cons_self
      rw [List.map_cons, checkEach, if_neg]
      · exact ih fun c hc => h c (List.mem_cons_of_mem _ hc)
      · unfold Control.decoded
        cases hc : c.critical with
        | none => simp [PyVal.truthy]
        | some b =>
          cases b with
          | true => exact absurd hc h1
          | false => simp [PyVal.truthy]

theorem wires_take {ms : List Obj} {b : Bytes} (h : Wires ms b) (k : Nat) : ∃ b', Wires (ms.take k) b' := by
  induction h generalizing k with
  | nil => exact ⟨[], by simpa using Wires.nil⟩
  | cons hw _ ih =>
    cases k with
    | zero => exact ⟨[], .nil⟩
    | succ k =>
      obtain ⟨b', hb⟩ := ih k
      exact ⟨_, .cons hw hb⟩

/-- The state of the server after the first `k` messages. -/
def after (env : Env) (lucks : Nat → Luck) (st : State) (ms : List Msg) (k : Nat) : Serving × Bool :=
  handAll (serverHandle env lucks) ⟨st, [], 0⟩ ((ms.take k).map dm)

section
variable {env : Env} {lucks : Nat → Luck} {st : State} {ms : List Msg} {b : Bytes}

theorem session_wf (hs : Session env lucks st ms) (hw : Wires (ms.map Msg.build) b) : ∀ m ∈ ms, m.op.WF := by
  intro m hm
  obtain ⟨j, hj⟩ := List.getElem?_of_mem hm
  obtain ⟨b', hb⟩ := wires_take hw j
  rw [← List.map_take] at hb
  exact (hs.each j m b' hj hb).wf

theorem direct_after (hs : Session env lucks st ms) (hw : Wires (ms.map Msg.build) b) (k : Nat) {b' : Bytes}
    (hb : Wires ((ms.take k).map Msg.build) b') {segs : List Bytes} (hseg : segs.flatten = b') :
    direct env lucks st segs = (after env lucks st ms k).1 := by
  have hc := Conn.carries_wires (ms.take k) (fun m hm => session_wf hs hw m (List.mem_of_mem_take hm)) hb
  exact (Conn.feed_carries (serverHandle env lucks) hc ⟨st, [], 0⟩ hseg).1

theorem passable (hs : Session env lucks st ms) (hw : Wires (ms.map Msg.build) b) {k : Nat} {m : Msg} (hm : ms[k]? = some m) :
    Passable (lucks k) (after env lucks st ms k).1.state m := by
  obtain ⟨b', hb⟩ := wires_take hw k
  rw [← List.map_take] at hb
  have := hs.each k m b' hm hb
  rwa [direct_after hs hw k hb (segs := [b']) (by simp)] at this

theorem served_any {luck : Luck} {s : State} {m : Msg} (hp : Passable luck s m) :
    ∃ (ans : List Op) (st' : State), (∀ i controls, IdRange i → checkControls controls = .ok () →
        serve env luck s (.message (.int i) (received m.op) controls) = some ⟨st', ans.map fun r => (.int i, r.build)⟩) ∧
      (∀ r ∈ ans, Response r) ∧ (∃ es fin : List Op, ans = es ++ fin ∧ fin.length ≤ 1 ∧ ∀ r ∈ es, Merger.isFinal r.build = false) ∧
      (m.op = .unbind → ans = []) := by
  rcases hp.kind with hk | hk
  · obtain ⟨ans, st', h1, h2, h3⟩ := served (env := env) (answerable_received hk) (fits_received hp.fits) hp.entries
      (shortList_received hp.size)
    refine ⟨ans, st', h1, h2, h3, fun h => ?_⟩
    rw [h] at hk
    cases hk
  · refine ⟨[], s, fun i controls hi _ => ?_, by simp, ⟨[], [], rfl, by simp, by simp⟩, fun _ => rfl⟩
    have h0 : PyVal.int i ≠ .int 0 := by
      intro h
      have := PyVal.int.inj h
      have := hi.1
      omega
    rw [hk]
    simp [received, Op.build, serve, isRequest, call, h0]

/-- A session has its answers and its states; handed the messages directly, the server sends the answers with the ids of the
requests. -/
theorem facts (hs : Session env lucks st ms) (hw : Wires (ms.map Msg.build) b) :
    ∃ S ans, Facts env lucks ms S ans ∧ S 0 = st ∧ ∀ k, k ≤ ms.length → after env lucks st ms k =
      (⟨S k, (answers ans k).map fun x => (.int ((ms[x.1]?.map Msg.id).getD 0), x.2.build), k⟩, false) := by
  have hex : ∀ k, ∃ y : List Op × State, ∀ m, ms[k]? = some m → (∀ i controls, IdRange i → checkControls controls = .ok () →
        serve env (lucks k) (after env lucks st ms k).1.state (.message (.int i) (received m.op) controls) =
          some ⟨y.2, y.1.map fun r => (.int i, r.build)⟩) ∧
      (∀ r ∈ y.1, Response r) ∧ (∃ es fin : List Op, y.1 = es ++ fin ∧ fin.length ≤ 1 ∧ ∀ r ∈ es, Merger.isFinal r.build = false) ∧
      (m.op = .unbind → y.1 = []) := by
    intro k
    cases hm : ms[k]? with
    | none => exact ⟨([], st), nofun⟩
    | some m =>
      obtain ⟨ans, st', h⟩ := served_any (env := env) (passable hs hw hm)
      exact ⟨(ans, st'), fun m' hm' => by cases hm'; exact h⟩
  obtain ⟨y, hy⟩ := Classical.axiomOfChoice hex
  have hget : ∀ m ∈ ms, ∃ k, ms[k]? = some m := fun m hm => List.getElem?_of_mem hm
  have hctl : ∀ m ∈ ms, checkControls (m.controls.map (·.map Control.decoded)) = .ok () := by
    intro m hm
    obtain ⟨k, hk⟩ := hget m hm
    exact controls_decoded (passable hs hw hk).uncritical
  have hid : ∀ m ∈ ms, IdRange m.id := by
    intro m hm
    obtain ⟨k, hk⟩ := hget m hm
    exact (passable hs hw hk).id
  have hstep : ∀ k, k ≤ ms.length → after env lucks st ms k = (⟨(after env lucks st ms k).1.state,
      (answers (fun k => (y k).1) k).map fun x => (.int ((ms[x.1]?.map Msg.id).getD 0), x.2.build), k⟩, false) ∧
      (∀ m, ms[k]? = some m → (after env lucks st ms (k + 1)).1.state = (y k).2) := by
    intro k
    have next : ∀ k m, ms[k]? = some m → after env lucks st ms k = (⟨(after env lucks st ms k).1.state,
        (answers (fun k => (y k).1) k).map fun x => (.int ((ms[x.1]?.map Msg.id).getD 0), x.2.build), k⟩, false) →
        after env lucks st ms (k + 1) = (⟨(y k).2,
          (answers (fun k => (y k).1) (k + 1)).map fun x => (.int ((ms[x.1]?.map Msg.id).getD 0), x.2.build), k + 1⟩, false) := by
      intro k m hm h
      have hmem := List.mem_of_getElem? hm
      have hserve := (hy k m hm).1 m.id _ (hid m hmem) (hctl m hmem)
      have h1 : after env lucks st ms (k + 1) = handAll (serverHandle env lucks) (after env lucks st ms k).1 [dm m] := by
        unfold after at h ⊢
        rw [List.take_add_one, hm, Option.toList_some, List.map_append, List.map_singleton, handAll_append]
        rw [if_neg (by rw [h]; simp)]
      rw [h1]
      generalize hA : (after env lucks st ms k).1.state = A at h hserve
      rw [h]
      simp only [handAll, serverHandle, dm, hserve, answers, List.map_append, List.map_map, Function.comp_def, hm, Option.map_some,
        Option.getD_some]
      simp
    induction k with
    | zero =>
      intro _
      have h0 : after env lucks st ms 0 = (⟨(after env lucks st ms 0).1.state,
        (answers (fun k => (y k).1) 0).map fun x => (.int ((ms[x.1]?.map Msg.id).getD 0), x.2.build), 0⟩, false) := by
        simp [after, handAll, answers]
      exact ⟨h0, fun m hm => by rw [next 0 m hm h0]⟩
    | succ k ih =>
      intro hk
      have hm := List.getElem?_eq_getElem (show k < ms.length by omega)
      obtain ⟨h1, h2⟩ := ih (by omega)
      have h3 := next k _ hm h1
      have h4 : after env lucks st ms (k + 1) = (⟨(after env lucks st ms (k + 1)).1.state,
        (answers (fun k => (y k).1) (k + 1)).map fun x => (.int ((ms[x.1]?.map Msg.id).getD 0), x.2.build), k + 1⟩, false) := by
        rw [h2 _ hm]; exact h3
      exact ⟨h4, fun m hm => by rw [next (k + 1) m hm h4]⟩
  have hlt : ∀ k, k < ms.length → ∃ m, ms[k]? = some m := fun k hk => ⟨_, List.getElem?_eq_getElem hk⟩
  refine ⟨fun k => (after env lucks st ms k).1.state, fun k => (y k).1, ?_, by simp [after, handAll], fun k hk => (hstep k hk).1⟩
  refine ⟨⟨hs.few, hid, ?_, ?_, ?_, ?_, ?_, hctl, ?_, ?_⟩, ?_⟩
  · exact session_wf hs hw
  · intro m hm; obtain ⟨k, hk⟩ := hget m hm; exact (passable hs hw hk).size
  · intro m hm; obtain ⟨k, hk⟩ := hget m hm; exact (passable hs hw hk).kind
  · exact fun m hm => let ⟨k, hk⟩ := hget m hm; (passable hs hw hk).plain
  · intro k m hm h; exact (hy k m hm).2.2.2 h
  · intro k hk; obtain ⟨m, hm⟩ := hlt k hk; exact (hy k m hm).2.1
  · intro k hk; obtain ⟨m, hm⟩ := hlt k hk; exact (hy k m hm).2.2.1
  · intro k m hm i controls hi hc
    have hk : k < ms.length := (List.getElem?_eq_some_iff.mp hm).1
    simp only [(hstep k (by omega)).2 m hm]
    exact (hy k m hm).1 i controls hi hc

end
end Verif.ProxySession
