import Verif.Model.Session
import Verif.Spec.Session
import Verif.Lemmas.Exchange
import Verif.Props.C10
import Verif.Props.C52
import Verif.Props.C67
/-
C75  A search through the library's own client and server finds exactly the matching entries, as they are.

`search`: the program calls `search`; what the client writes goes over the network to the server, in any segments; what the
server writes comes back, in any segments; the Deferred of the search fires, with the entries in scope that match, each once,
parents first, with the same DN and the values of the attributes that were asked for.  The server is as it was, both connections
are up, and the client has forgotten the request.

The hypotheses are those of C67; also, the DNs can be written as text (C10), and no attribute is asked for twice.
-/
namespace Verif.C75
open Verif.Ldap Verif.Spec Verif.Spec.Modify Verif.Server Verif.Tree Verif.Session

theorem parse_text {U : Unicode} {d : Dn.Dn} (h : Textual d) : Dn.Dn.parse U d.text = .ok d :=
  C10.components_roundtrip U d h.types h.rdns

theorem text_ne {d : Dn.Dn} (h : Textual d) (hd : d ≠ []) : Utf8.encode d.text ≠ [] := by
  intro he
  have h1 : Utf8.decode (Utf8.encode d.text) = .ok d.text := Utf8.decode_encode _
  rw [he] at h1
  have h2 : Utf8.decode ([] : Bytes) = .ok [] := by decide +kernel
  rw [h2] at h1
  have h3 := parse_text (U := asciiTables) h
  rw [← Except.ok.inj h1] at h3
  have h4 : Dn.Dn.parse asciiTables [] = .ok [] := by decide +kernel
  rw [h4] at h3
  exact hd (Except.ok.inj h3).symm

/-! ### The client -/

theorem responsesTo_append (d : Nat) (l m : List Client.Note) : responsesTo d (l ++ m) = responsesTo d l ++ responsesTo d m := by
  induction l with
  | nil => rfl
  | cons n l ih =>
    cases n <;> simp only [List.cons_append, responsesTo, ih]
    split <;> simp

theorem handled {U : Unicode} {o : ClientSearch.Options} {app : Client.App} {fuel c d : Nat} {i : Int} (happ : Searches U o d app)
    (hi : i ≠ 0) {w : Client.World} (hl : (w.conns c).onwire.lookup i = some ⟨d, true, true, .plain⟩) {op : Obj}
    (hr : Client.isResponse op = true) :
    Client.handle app fuel w c (.message (.int i) op none) =
      match (ClientSearch.run U o ((responsesTo d w.log ++ [op]).map .response)).outcome with
      | none => (w.note (.handled d op (some none)), false)
      | some .lost => (w.note (.handled d op (some none)), true)
      | some _ => ((Client.forget (w.note (.handled d op (some none))) c i).note (.finished d), false) := by
  have ha := happ w.log op (some none)
  cases hx : (ClientSearch.run U o ((responsesTo d w.log ++ [op]).map .response)).outcome with
  | none =>
    simp only [reaction, hx] at ha
    simp [Client.handle, hr, hl, hi, Client.World.note, ha]
  | some x =>
    cases x <;> simp only [reaction, hx] at ha <;> simp [Client.handle, hr, hl, hi, Client.World.note, ha]

theorem handAll_waits {U : Unicode} {o : ClientSearch.Options} {app : Client.App} {fuel c d : Nat} {i : Int} (happ : Searches U o d app)
    (hi : i ≠ 0) (ops : List Obj) (hr : ∀ op ∈ ops, Client.isResponse op = true) (w : Client.World)
    (hl : (w.conns c).onwire.lookup i = some ⟨d, true, true, .plain⟩) (rest : List Obj)
    (hout : ∀ k, k ≤ ops.length → (ClientSearch.run U o ((responsesTo d w.log ++ ops.take k).map .response)).outcome = none) :
    ∃ w' : Client.World, handAll (clientHandle app fuel c) w (ops.map (fun op => .message (.int i) op none) ++ rest) =
        handAll (clientHandle app fuel c) w' rest ∧ w'.conns = w.conns ∧ responsesTo d w'.log = responsesTo d w.log ++ ops := by
  induction ops generalizing w with
  | nil => exact ⟨w, rfl, rfl, by simp⟩
  | cons op ops ih =>
    have h1 := hout 1 (by simp)
    rw [List.take_succ_cons, List.take_zero] at h1
    have hh := handled (fuel := fuel) happ hi hl (hr op List.mem_cons_self)
    rw [h1] at hh
    have hlog : responsesTo d (w.note (.handled d op (some none))).log = responsesTo d w.log ++ [op] := by
      simp only [Client.World.note, responsesTo_append, responsesTo, if_true]
    obtain ⟨w', e1, e2, e3⟩ := ih (fun x hx => hr x (List.mem_cons_of_mem _ hx)) (w.note (.handled d op (some none))) hl (by
      intro k hk
      have := hout (k + 1) (by simp; omega)
      rw [hlog, List.append_assoc]
      exact this)
    refine ⟨w', ?_, e2, by rw [e3, hlog, List.append_assoc]; rfl⟩
    rw [List.map_cons, List.cons_append, handAll]
    show (if (Client.handle app fuel w c (.message (.int i) op none)).2 then _ else _) = _
    rw [if_neg (by rw [hh]; simp)]
    show handAll _ (Client.handle app fuel w c (.message (.int i) op none)).1 _ = _
    rw [hh]
    exact e1

/-! ### What the server sends is what the client reads -/

theorem readOp_sent {i : Int} {op : Op} (hwf : op.WF) (h : encodes (.int i) op.build = true) : readOp (received op) = some op := by
  unfold encodes at h
  cases hw : toWire (.message (.int i) op.build none) with
  | error e => rw [hw] at h; cases h
  | ok w =>
    have := Conn.readMsg_received ⟨i, op, none⟩ hwf hw
    simp only [readMsg, asInt, bind, Option.bind] at this
    cases hr : readOp (received op) with
    | none => rw [hr] at this; cases this
    | some op' => rw [hr] at this; simp only [Option.map_none, readControls] at this; cases this; rfl

theorem lower_ascii {b : Bytes} (h : Utf8.AsciiBytes (PyStr.lowerBytes b)) : Utf8.AsciiBytes b := by
  intro x hx
  have := h (PyStr.lowerByte x) (List.mem_map.mpr ⟨x, hx, rfl⟩)
  unfold PyStr.lowerByte at this
  split at this
  · rename_i h'
    have := UInt8.le_iff_toNat_le.mp h'.2
    simp at this
    omega
  · exact this

theorem shown_proper {e : Entry} {wanted : List Bytes} {l : Spec.Attrs} (h : Shown e wanted l) (he : WellNamed e)
    (hd : Explicit wanted → wanted.Pairwise fun j k => fold j ≠ fold k) : l.Proper := by
  refine ⟨fun p hp => ?_, h.once hd⟩
  obtain ⟨_, vs, ⟨k, hk, hs⟩, _⟩ := h.sound p.1 p.2 hp
  have h1 : Utf8.AsciiBytes (PyStr.lowerBytes k.toBytes) := PyStr.lowerBytes_ascii (he.ascii k vs hk)
  have hs : PyStr.lowerBytes k.toBytes = PyStr.lowerBytes p.1 := hs
  rw [hs] at h1
  exact lower_ascii h1

theorem found_copy {U : Unicode} {c : Bool} {e : Entry} {wanted : List Bytes} {l : Spec.Attrs} {x : Syntax.St} (hw : Textual e.dn)
    (he : WellNamed e) (h : Shown e wanted l) (hx : FoundAs U c (Utf8.encode e.dn.text) l x) : Copy e wanted c x := by
  refine ⟨?_, fun n v => ?_, hx.sets, hx.named, hx.remote, hx.journal, hx.ready, hx.complete⟩
  · obtain ⟨s, h1, h2⟩ := hx.dn
    rw [Utf8.decode_encode] at h1
    cases h1
    rw [parse_text hw] at h2
    exact (Except.ok.inj h2).symm
  · rw [hx.attrs]
    constructor
    · rintro ⟨p, hp, hn, b, hb, rfl⟩
      obtain ⟨h1, vs, ⟨k, hk, hs⟩, hperm⟩ := h.sound p.1 p.2 hp
      obtain ⟨u, hu, rfl⟩ := List.mem_map.mp (hperm.mem_iff.mp hb)
      exact ⟨⟨k, vs, u, hk, Eq.trans hs hn, hu, rfl⟩, fun hex => ⟨p.1, h1 hex, hn⟩⟩
    · rintro ⟨⟨a, vs, u, ha, hn, hu, rfl⟩, hex⟩
      obtain ⟨k, ws, hk, hs, hperm⟩ := h.complete a vs ⟨a, ha, rfl⟩ (List.ne_nil_of_mem hu) (fun hx => by
        obtain ⟨k, hk, hn'⟩ := hex hx
        exact ⟨k, hk, Eq.trans hn hn'.symm⟩)
      exact ⟨(k, ws), hk, Eq.trans (Eq.symm hs) hn, u.toBytes, hperm.mem_iff.mpr (List.mem_map.mpr ⟨u, hu, rfl⟩), rfl⟩

/-- What is known about the entries that are sent. -/
def Sent (h : Heap) (i : Int) (wanted : List Bytes) (x : Nat × Op) : Prop :=
  C67.Shows h wanted x.1 x.2 ∧ encodes (.int i) x.2.build = true ∧
    ∀ n, h[x.1]? = some n → WellNamed n.entry ∧ Textual n.entry.dn

theorem readOp_entry {h : Heap} {i : Int} {wanted : List Bytes} {x : Nat × Op} (hs : Sent h i wanted x) :
    ∃ n l, h[x.1]? = some n ∧ Shown n.entry wanted l ∧ WellNamed n.entry ∧ Textual n.entry.dn ∧
      readOp (received x.2) = some (.entry (Utf8.encode n.entry.dn.text) l) := by
  obtain ⟨⟨n, l, hn, ho, hsh⟩, he, hx⟩ := hs
  refine ⟨n, l, hn, hsh, (hx n hn).1, (hx n hn).2, ?_⟩
  rw [readOp_sent (by rw [ho]; trivial) he, ho]

theorem brings_copies {U : Unicode} {c : Bool} {h : Heap} {i : Int} {wanted : List Bytes} (l : List (Nat × Op))
    (hl : ∀ x ∈ l, Sent h i wanted x) {es : List Syntax.St} (hb : Brings U c (l.map fun x => received x.2) es) :
    Each (fun k e => ∃ n, h[k]? = some n ∧ Copy n.entry wanted c e) (l.map (·.1)) es := by
  induction l generalizing es with
  | nil => cases hb; exact .nil
  | cons x l ih =>
    obtain ⟨n, as, hn, hsh, hwn, hwr, hr⟩ := readOp_entry (hl x List.mem_cons_self)
    rw [List.map_cons] at hb
    cases hb with
    | reference h' => rw [hr] at h'; cases h'
    | entry h' hf hb =>
      rw [hr] at h'
      cases h'
      exact .cons ⟨n, hn, found_copy hwr hwn hsh hf⟩ (ih (fun y hy => hl y (List.mem_cons_of_mem _ hy)) hb)

theorem isResponse_read {o : Obj} {dn : Bytes} {as : Spec.Attrs} (h : readOp o = some (.entry dn as)) : Client.isResponse o = true := by
  obtain ⟨tag, name, l, rfl, _⟩ := C52.readOp_entry h
  rfl

/-- A request that the server answers with entries and then with success, without a change. -/
theorem exchange (env : Env) (hU : Sane env.U) (luck : Luck) (st : State)
    (w : Client.World) (app : Client.App) (fuel c : Nat) (o : ClientSearch.Options) (hq : C52.Quiet o)
    (happ : Searches env.U o w.deferreds.length app) (hnew : responsesTo w.deferreds.length w.log = [])
    (hconn : (w.conns c).connected = true) (hid : 0 < w.nextId ∧ w.nextId < 2 ^ 31) (hfree : (w.conns c).onwire.lookup w.nextId = none)
    (op : Op) (hop : op.WF) (hna : Client.needsAnswer op.build = some true) (hsize : (Msg.mk w.nextId op none).size < lengthLimit)
    (s : Served) (ops : List Op) (h1 : serve env luck st (.message (.int w.nextId) (received op) none) = some s) (h2 : s.state = st)
    (h3 : s.sent = (ops ++ [Op.result .searchDone 0 [] []]).map fun op => (.int w.nextId, op.build))
    (h8 : ∀ x ∈ s.sent, encodes x.1 x.2 = true) (hwf' : ∀ op ∈ ops, op.WF)
    (hresp : ∀ op ∈ ops, Client.isResponse (received op) = true) (hsnd : ∀ op ∈ ops, Sound env.U (received op)) :
    let p : Client.Pending := ⟨w.deferreds.length, true, true, .plain⟩
    let w₁ := Client.call app fuel w (.sendMultiEx c op.build none true)
    ∃ out, w₁.log = w.log ++ [.made c w.nextId, .sent c w.nextId p op.build, .written c out] ∧
      ∀ segs, segs.flatten = out → ∃ sent back,
        (Conn.feed (serverHandle env luck) (Conn.fresh (st, [])) segs).st = (st, sent) ∧
        (Conn.feed (serverHandle env luck) (Conn.fresh (st, [])) segs).dead = false ∧
        Wires (sent.map fun x => .message x.1 x.2 none) back ∧
        ∀ segs', segs'.flatten = back →
          let s := Conn.feed (clientHandle app fuel c) (Conn.fresh w₁) segs'
          let r := ClientSearch.run env.U o ((responsesTo p.d s.st.log).map .response)
          s.dead = false ∧ .finished p.d ∈ s.st.log ∧ (s.st.conns c).onwire.lookup w.nextId = none ∧
          r.outcome = some .finished ∧ Brings env.U o.complete (ops.map received) r.entries := by
  intro p w₁
  obtain ⟨out, hout, _⟩ := W.msg ⟨w.nextId, op, none⟩ hsize
  have hout : toWire (.message (.int w.nextId) op.build none) = .ok out := hout
  have hw₁ : w₁ = { w with
      nextId := w.nextId + 1
      conns := fun x => if x = c then { w.conns c with onwire := (w.conns c).onwire ++ [(w.nextId, p)] } else w.conns x
      deferreds := w.deferreds ++ [.waiting]
      log := w.log ++ [.made c w.nextId, .sent c w.nextId p op.build, .written c out] } := by
    show Client.call app fuel w (.sendMultiEx c op.build none true) = _
    simp only [Client.call, Client.sendNew, Client.sendOn, Client.prepare, hconn, if_true, Client.World.note, hfree, hna, Client.register,
      Client.World.setConn, Client.write, hout]
    simp [p]
  have hlog : w₁.log = w.log ++ [.made c w.nextId, .sent c w.nextId p op.build, .written c out] := by rw [hw₁]
  have hwire : (w₁.conns c).onwire.lookup w.nextId = some p := by
    rw [hw₁]
    simp [List.lookup_append, hfree, List.lookup]
  refine ⟨out, hlog, fun segs hsegs => ?_⟩
  -- the server
  have hcar : Conn.Carries out [.message (.int w.nextId) (received op) none] := by
    have := Conn.carries_wires [⟨w.nextId, op, none⟩] (fun m hm => by
      rw [List.mem_singleton.mp hm]; exact hop) (b := out ++ []) (.cons hout .nil)
    rwa [List.append_nil] at this
  have hserved := Conn.feed_carries (serverHandle env luck) hcar (st, []) hsegs
  have hall : handAll (serverHandle env luck) (st, []) [.message (.int w.nextId) (received op) none] = ((st, s.sent), false) := by
    simp only [handAll, serverHandle, h1, h2, List.nil_append]
    rfl
  rw [hall] at hserved
  obtain ⟨back, hback⟩ := wires_exist (ms := s.sent.map fun x => Obj.message x.1 x.2 none) (by
    intro m hm
    obtain ⟨x, hx, rfl⟩ := List.mem_map.mp hm
    exact h8 x hx)
  refine ⟨s.sent, back, hserved.1, hserved.2, hback, fun segs' hsegs' => ?_⟩
  -- the client
  let last : Obj := received (Op.result .searchDone 0 [] [])
  have hms : s.sent.map (fun x => Obj.message x.1 x.2 none) =
      ((ops ++ [Op.result .searchDone 0 [] []]).map fun op => (⟨w.nextId, op, none⟩ : Msg)).map Msg.build := by
    rw [h3, List.map_map, List.map_map]; rfl
  rw [hms] at hback
  have hwf : ∀ m ∈ (ops ++ [Op.result .searchDone 0 [] []]).map (fun op => (⟨w.nextId, op, none⟩ : Msg)), m.op.WF := by
    intro m hm
    obtain ⟨op, hop, rfl⟩ := List.mem_map.mp hm
    rcases List.mem_append.mp hop with h | h
    · exact hwf' op h
    · rw [List.mem_singleton.mp h]; trivial
  have hcb := Conn.carries_wires _ hwf hback
  have hops : ((ops ++ [Op.result .searchDone 0 [] []]).map fun op => (⟨w.nextId, op, none⟩ : Msg)).map
      (fun m => Obj.message (.int m.id) (received m.op) (m.controls.map (·.map Control.decoded))) =
      (ops.map received).map (fun op => Obj.message (.int w.nextId) op none) ++ [.message (.int w.nextId) last none] := by
    simp [List.map_map, Function.comp_def, last]
  rw [hops] at hcb
  have hfed := Conn.feed_carries (clientHandle app fuel c) hcb w₁ hsegs'
  have hsound : ∀ m ∈ ops.map received, Sound env.U m := by
    intro m hm
    obtain ⟨x, hx, rfl⟩ := List.mem_map.mp hm
    exact hsnd x hx
  have hi0 : w.nextId ≠ 0 := by omega
  have hr₁ : responsesTo p.d w₁.log = [] := by
    rw [hlog, responsesTo_append]
    show responsesTo w.deferreds.length w.log ++ _ = _
    rw [hnew]; rfl
  obtain ⟨w₂, e1, e2, e3⟩ := handAll_waits (fuel := fuel) (c := c) happ hi0 (ops.map received) (by
      intro m hm
      obtain ⟨x, hx, rfl⟩ := List.mem_map.mp hm
      exact hresp x hx) w₁ hwire [.message (.int w.nextId) last none] (by
      intro k hk
      rw [hr₁, List.nil_append]
      exact (C52.waits hU hq _ (fun m hm => hsound m (List.mem_of_mem_take hm))).1)
  have e3 : responsesTo p.d w₂.log = ops.map received := by
    have e3 : responsesTo p.d w₂.log = responsesTo p.d w₁.log ++ _ := e3
    rw [e3, hr₁, List.nil_append]
  obtain ⟨ho, hbr⟩ := C52.succeeds hU hq (ops.map received) hsound last [] rfl
  have hlast := handled (fuel := fuel) (w := w₂) (c := c) (d := p.d) (i := w.nextId) (op := last) happ hi0 (by rw [e2]; exact hwire) rfl
  rw [e3, ho] at hlast
  have hlast : Client.handle app fuel w₂ c (.message (.int w.nextId) last none) =
      ((Client.forget (w₂.note (.handled p.d last (some none))) c w.nextId).note (.finished p.d), false) := hlast
  have hfin : handAll (clientHandle app fuel c) w₁
      ((ops.map received).map (fun op => Obj.message (.int w.nextId) op none) ++ [.message (.int w.nextId) last none]) =
      ((Client.forget (w₂.note (.handled p.d last (some none))) c w.nextId).note (.finished p.d), false) := by
    rw [e1]
    simp only [handAll, clientHandle, hlast]
    rfl
  rw [hfin] at hfed
  intro s' r
  have hst : s'.st = (Client.forget (w₂.note (.handled p.d last (some none))) c w.nextId).note (.finished p.d) := hfed.1
  have hrs : responsesTo p.d s'.st.log = ops.map received ++ [last] := by
    rw [hst]
    show responsesTo p.d (w₂.log ++ [.handled p.d last (some none)] ++ [.finished p.d]) = _
    rw [responsesTo_append, responsesTo_append, e3]
    simp [responsesTo]
  have hr : r = ClientSearch.run env.U o ((ops.map received ++ [last]).map .response) := by
    show ClientSearch.run env.U o ((responsesTo p.d s'.st.log).map .response) = _
    rw [hrs]
  refine ⟨hfed.2, ?_, ?_, ?_, ?_⟩
  · rw [hst]; exact List.mem_append_right _ List.mem_cons_self
  · rw [hst]
    simp only [Client.forget, Client.World.note, Client.World.setConn, if_true]
    exact lookup_filter _ _
  · rw [hr]; exact ho
  · rw [hr]; exact hbr

/-- **C75** -/
theorem search (env : Env) (hU : Sane env.U) (luck : Luck) (st : State) (hb : C67.Built env st.heap)
    (w : Client.World) (app : Client.App) (fuel c : Nat) (o : ClientSearch.Options) (hq : C52.Quiet o)
    (happ : Searches env.U o w.deferreds.length app) (hnew : responsesTo w.deferreds.length w.log = [])
    (hconn : (w.conns c).connected = true) (hid : 0 < w.nextId ∧ w.nextId < 2 ^ 31) (hfree : (w.conns c).onwire.lookup w.nextId = none)
    (d : Dn.Dn) (hd : Textual d) (scope deref sl tl : Int) (ty : Bool) (f : Spec.Filter) (wanted : List Bytes)
    (hw : ∀ k ∈ wanted, (PyStr.bytes k).Ascii) (hdist : Explicit wanted → wanted.Pairwise fun j k => fold j ≠ fold k)
    (sc : Scope) (hsc : C67.ScopeCode scope sc) (hdse : d ≠ [] ∨ scope ≠ 0) (j : Nat) (hj : lookup env.U st.heap 0 d = .ok j)
    (hlt : j < st.heap.length) (hev : C26.Evaluable env.U st.heap f.sem j sc)
    (hent : ∀ k n, C26.InScope st.heap j sc k → st.heap[k]? = some n → C67.Sendable n.entry wanted ∧ Textual n.entry.dn)
    (hsize : (Msg.mk w.nextId (.search (Utf8.encode d.text) scope deref sl tl ty f wanted) none).size < lengthLimit) :
    let request := (Op.search (Utf8.encode d.text) scope deref sl tl ty f wanted).build
    let p : Client.Pending := ⟨w.deferreds.length, true, true, .plain⟩
    let w₁ := Client.call app fuel w (.sendMultiEx c request none true)
    ∃ out, w₁.log = w.log ++ [.made c w.nextId, .sent c w.nextId p request, .written c out] ∧
      ∀ segs, segs.flatten = out → ∃ sent back,
        (Conn.feed (serverHandle env luck) (Conn.fresh (st, [])) segs).st = (st, sent) ∧
        (Conn.feed (serverHandle env luck) (Conn.fresh (st, [])) segs).dead = false ∧
        Wires (sent.map fun x => .message x.1 x.2 none) back ∧
        ∀ segs', segs'.flatten = back →
          let s := Conn.feed (clientHandle app fuel c) (Conn.fresh w₁) segs'
          let r := ClientSearch.run env.U o ((responsesTo p.d s.st.log).map .response)
          s.dead = false ∧ .finished p.d ∈ s.st.log ∧ (s.st.conns c).onwire.lookup w.nextId = none ∧
          r.outcome = some .finished ∧
          ∃ ks, Each (fun k e => ∃ n, st.heap[k]? = some n ∧ Copy n.entry wanted o.complete e) ks r.entries ∧
            (∀ k, k ∈ ks ↔ C26.InScope st.heap j sc k ∧ C26.Matches env.U st.heap f.sem k) ∧ ks.Nodup ∧
            ks.Pairwise fun a b => ¬ Below st.heap b a := by
  intro request p w₁
  obtain ⟨s, l, h1, h2, h3, h4, h5, h6, h7, h8⟩ := C67.search_answered env hU luck st hb w.nextId hid 0x43 (Utf8.encode d.text) scope (.int deref)
    (.int sl) (.int tl) (.int (if (if ty then (1:Int) else 0) = 0 then 0 else 255)) f wanted hw [] (fun ⟨_, _, _, h, _⟩ => by cases h) sc hsc
    (hdse.imp (text_ne hd) id) d.text d (Utf8.decode_encode _) (parse_text hd) j hj hlt hev (fun k n h h' => (hent k n h h').1)
  rw [C41.noncritical_ignored env luck st _ _ [] (fun ⟨_, _, _, h, _⟩ => by cases h)] at h1
  have hsent : ∀ x ∈ l, Sent st.heap w.nextId wanted x := by
    intro x hx
    refine ⟨h4 x hx, h8 (.int w.nextId, x.2.build) ?_, fun n hn => ?_⟩
    · rw [h3]
      exact List.mem_map.mpr ⟨x.2, List.mem_append_left _ (List.mem_map.mpr ⟨x, hx, rfl⟩), rfl⟩
    · have := hent x.1 n ((h5 x.1).mp (List.mem_map.mpr ⟨x, hx, rfl⟩)).1 hn
      exact ⟨this.1.named, this.2⟩
  obtain ⟨out, hlog, hex⟩ := exchange env hU luck st w app fuel c o hq happ hnew hconn hid hfree
    (.search (Utf8.encode d.text) scope deref sl tl ty f wanted) trivial rfl hsize s (l.map Prod.snd) h1 h2 h3 h8
    (fun op hop => by
      obtain ⟨x, hx, rfl⟩ := List.mem_map.mp hop
      obtain ⟨n, as, _, ho, _⟩ := h4 x hx
      rw [ho]; trivial)
    (fun op hop => by
      obtain ⟨x, hx, rfl⟩ := List.mem_map.mp hop
      obtain ⟨n, as, hn, hsh, hwn, hwr, hr⟩ := readOp_entry (hsent x hx)
      exact isResponse_read hr)
    (fun op hop => by
      obtain ⟨x, hx, rfl⟩ := List.mem_map.mp hop
      obtain ⟨n, as, hn, hsh, hwn, hwr, hr⟩ := readOp_entry (hsent x hx)
      exact .inr ⟨_, as, n.entry.dn, hr, ⟨_, Utf8.decode_encode _, parse_text hwr⟩, shown_proper hsh hwn hdist⟩)
  refine ⟨out, hlog, fun segs hsegs => ?_⟩
  obtain ⟨sent, back, g1, g2, g3, g4⟩ := hex segs hsegs
  refine ⟨sent, back, g1, g2, g3, fun segs' hsegs' => ?_⟩
  obtain ⟨k1, k2, k3, k4, k5⟩ := g4 segs' hsegs'
  rw [List.map_map] at k5
  exact ⟨k1, k2, k3, k4, l.map (·.1), brings_copies l hsent k5, h5, h6, h7⟩

/-! ### Example: the directory of C67, and a process that does one search -/

/-- A program that has started one search. -/
def program (U : Unicode) (o : ClientSearch.Options) (d : Nat) : Client.App := fun log =>
  match log.getLast? with
  | some (.handled d' _ _) => if d' = d then reaction (ClientSearch.run U o ((responsesTo d log).map .response)) else ⟨[], false, false⟩
  | _ => ⟨[], false, false⟩

theorem program_searches (U : Unicode) (o : ClientSearch.Options) (d : Nat) : Searches U o d (program U o d) := by
  intro log op cs
  simp only [program, List.getLast?_append, List.getLast?_singleton, Option.some_or, if_true, responsesTo_append, responsesTo]

def options : ClientSearch.Options := ⟨false, false, fun _ => false⟩

/-- The process after it is connected. -/
def world : Client.World := Client.run (program asciiTables options 0) 0 [.made 0]

theorem writable (k : Nat) (n : Node) (hn : C67.heap[k]? = some n) : Textual n.entry.dn := by
  have := List.mem_of_getElem? hn
  have : n = ⟨C67.root, none, [(['c','n','=','b'], 1)]⟩ ∨ n = ⟨C67.child, some 0, []⟩ := by simpa [C67.heap] using this
  rcases this with rfl | rfl
  · exact ⟨by decide, by decide⟩
  · exact ⟨by decide, by decide⟩

theorem evaluable : C26.Evaluable asciiTables C67.heap (Filter.equal (ascii "cn") (ascii "B")).sem 0 .sub := by
  intro k _ n hn
  have := List.mem_of_getElem? hn
  have : n = ⟨C67.root, none, [(['c','n','=','b'], 1)]⟩ ∨ n = ⟨C67.child, some 0, []⟩ := by simpa [C67.heap] using this
  rcases this with rfl | rfl
  · exact ⟨false, by decide +kernel⟩
  · exact ⟨true, by decide +kernel⟩

/-- A subtree search for `(cn=B)`, asking for the attribute `CN`. -/
example := search C40.env asciiTables_sane C40.luck ⟨C67.heap, none⟩ C67.built world (program asciiTables options 0) 0 0 options (fun _ => rfl)
  (program_searches _ _ _) rfl (by decide +kernel) (by decide +kernel) (by decide +kernel) C67.root.dn (writable 0 _ rfl) 2 0 0 0 false
  (.equal (ascii "cn") (ascii "B")) [ascii "CN"] (by decide +kernel) (fun _ => List.pairwise_singleton _ _) .sub .sub (.inr (by decide)) 0 (by decide +kernel)
  (by decide) evaluable (fun k n _ hn => ⟨C67.sendable k n hn, writable k n hn⟩) (Nat.lt_trans (by decide +kernel) two64_lt_limit)

end Verif.C75
