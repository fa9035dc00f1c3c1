import Verif.Model.NamingContext
import Verif.Props.C11
import Verif.Props.C75
/-
C87  The naming context of an entry.

`found_partial`: whatever a server answers, as long as the values of `namingContexts` are DNs, the Deferred of `namingContext` is
given one of them that contains the DN of the entry, and fails if there is none.  If no naming context is within another, it is
the nearest.  If one is, it may be any (`nested_either`).

`of_server`: with this library's server at the other end it is the root of the tree, if the entry may be there.
-/
namespace Verif.C87
open Verif.Ldap Verif.Spec Verif.Spec.Modify Verif.Syntax Verif.NamingContext
open Verif.Server (Env Luck State ascii)

variable {U : Unicode} {o : ClientSearch.Options} {dn : Dn.Dn}

/-- A naming context that a server tells of. -/
def Context (ms : List Obj) (v : Bytes) : Prop :=
  ∃ m ∈ ms, ∃ name as, readOp m = some (.entry name as) ∧ ∃ p ∈ as, fold p.1 = fold (ascii "namingContexts") ∧ v ∈ p.2

/-! ### The loops -/

theorem readName_means {v : Bytes} {d : Dn.Dn} : readName U (.bytes v) = .ok d ↔ Means U v d := by
  unfold readName Server.readDn Means
  simp only [bind, Except.bind]
  constructor
  · intro h
    split at h
    · cases h
    · rename_i s hs; exact ⟨s, hs, h⟩
  · rintro ⟨s, h1, h2⟩
    rw [h1]; exact h2

theorem among_spec (vs : List PyStr) (h : ∀ v ∈ vs, ∃ b d, v = .bytes b ∧ Means U b d) :
    ∃ x, among U dn vs = .ok x ∧ (∀ d, x = some d → ∃ b, .bytes b ∈ vs ∧ Means U b d ∧ Dn.Dn.contains U d dn = true) ∧
      (x = none → ∀ b d, .bytes b ∈ vs → Means U b d → Dn.Dn.contains U d dn = false) := by
  induction vs with
  | nil => exact ⟨none, rfl, nofun, fun _ _ _ h => by cases h⟩
  | cons v vs ih =>
    obtain ⟨b, d, rfl, hm⟩ := h v List.mem_cons_self
    obtain ⟨x, h1, h2, h3⟩ := ih fun v hv => h v (List.mem_cons_of_mem _ hv)
    simp only [among, readName_means.mpr hm]
    cases hc : Dn.Dn.contains U d dn with
    | true =>
      rw [if_pos rfl]
      exact ⟨some d, rfl, fun d' e => by cases e; exact ⟨b, List.mem_cons_self, hm, hc⟩, nofun⟩
    | false =>
      rw [if_neg (by simp)]
      refine ⟨x, h1, fun d' e => ?_, fun e b' d' hb' hm' => ?_⟩
      · obtain ⟨b', g1, g2, g3⟩ := h2 d' e
        exact ⟨b', List.mem_cons_of_mem _ g1, g2, g3⟩
      · rcases List.mem_cons.mp hb' with h | h
        · cases h
          have := (readName_means.mpr hm').symm.trans (readName_means.mpr hm)
          cases this
          exact hc
        · exact h3 e b' d' h hm'

theorem contexts_found (hU : Sane U) {e : St} {name : Bytes} {as : Spec.Attrs} {c : Bool} (h : FoundAs U c name as e) :
    ∃ vs, contexts U e = .ok vs ∧ ∀ v, v ∈ vs ↔ ∃ p ∈ as, fold p.1 = fold (ascii "namingContexts") ∧ ∃ b ∈ p.2, v = .bytes b := by
  have hkb : (PyStr.text "namingContexts".toList).toBytes = ascii "namingContexts" := by decide +kernel
  have hk : (PyStr.text "namingContexts".toList).Ascii := by unfold PyStr.Ascii; decide +kernel
  have hd : ∃ l, (PyStr.text "namingContexts".toList).getStrings = .ok l := PyStr.getStrings_total.mp (PyStr.ascii_decodable hk)
  have key : ∀ v, Has e.attrs (fold (ascii "namingContexts")) v ↔
      ∃ p ∈ as, fold p.1 = fold (ascii "namingContexts") ∧ ∃ b ∈ p.2, v = .bytes b := fun v => h.attrs _ v
  by_cases hx : ∃ p ∈ e.attrs, fold p.1.toBytes = fold (ascii "namingContexts")
  · obtain ⟨p, hp, hn⟩ := hx
    have ht := target_found hU h.named h.ready hk hp (by rw [hkb]; exact hn)
    refine ⟨p.2, by simp only [contexts, ht], fun v => ?_⟩
    rw [← key]
    constructor
    · intro hv; exact ⟨p, hp, hn, hv⟩
    · rintro ⟨q, hq, hqn, hv⟩
      rw [← Named.unique h.named hq hp (hqn.trans hn.symm)]
      exact hv
  · refine ⟨[], ?_, fun v => ?_⟩
    · cases ht : target U e (.text "namingContexts".toList) with
      | ok p =>
        obtain ⟨hp, _, y, hy, hl⟩ := target_mem ht
        refine absurd ⟨p, hp, ?_⟩ hx
        have hyA : y.Ascii := by unfold PyStr.Ascii; rw [hy]; exact hk
        have := Match.sameName_lower hU (h.named.names p hp).ascii hyA hl
        unfold SameName at this
        rw [hy, hkb] at this
        exact this
      | error x =>
        obtain ⟨l, hl⟩ := hd
        unfold target at ht
        rw [h.ready, hl] at ht
        simp only [Bool.false_eq_true, if_false] at ht
        split at ht
        · cases ht
          simp only [contexts, target, h.ready, hl]
          rename_i hf
          simp [hf]
        · cases ht
    · rw [← key]
      constructor
      · intro hv; cases hv
      · rintro ⟨q, hq, hqn, hv⟩
        exact absurd ⟨q, hq, hqn⟩ hx

theorem ofResults_spec (hU : Sane U) {c : Bool} {ms : List Obj} {es : List St} (hb : Brings U c ms es)
    (hall : ∀ v, Context ms v → ∃ d, Means U v d) :
    ∃ x, ofResults U dn es = .ok x ∧ (∀ d, x = some d → ∃ v, Context ms v ∧ Means U v d ∧ Dn.Dn.contains U d dn = true) ∧
      (x = none → ∀ v d, Context ms v → Means U v d → Dn.Dn.contains U d dn = false) := by
  have tail : ∀ {m : Obj} {ms : List Obj} {v : Bytes}, Context ms v → Context (m :: ms) v := by
    rintro m ms v ⟨m', hm', h⟩
    exact ⟨m', List.mem_cons_of_mem _ hm', h⟩
  induction hb with
  | nil => exact ⟨none, rfl, nofun, fun _ v d ⟨_, h, _⟩ => by cases h⟩
  | @reference m ms us es hr _ ih =>
    obtain ⟨x, h1, h2, h3⟩ := ih fun v hv => hall v (tail hv)
    refine ⟨x, h1, fun d e => ?_, fun e v d hv hm => ?_⟩
    · obtain ⟨v, g1, g2⟩ := h2 d e
      exact ⟨v, tail g1, g2⟩
    · obtain ⟨m', hm', name, as, g1, g2⟩ := hv
      rcases List.mem_cons.mp hm' with rfl | hm'
      · rw [hr] at g1; cases g1
      · exact h3 e v d ⟨m', hm', name, as, g1, g2⟩ hm
  | @entry m ms e es name as hr hf _ ih =>
    obtain ⟨x, h1, h2, h3⟩ := ih fun v hv => hall v (tail hv)
    obtain ⟨vs, g1, g2⟩ := contexts_found hU hf
    have here : ∀ b, .bytes b ∈ vs ↔ ∃ p ∈ as, fold p.1 = fold (ascii "namingContexts") ∧ b ∈ p.2 := by
      intro b
      rw [g2]
      constructor
      · rintro ⟨p, hp, hn, b', hb', e⟩
        cases e
        exact ⟨p, hp, hn, hb'⟩
      · rintro ⟨p, hp, hn, hb⟩
        exact ⟨p, hp, hn, b, hb, rfl⟩
    have now : ∀ b, .bytes b ∈ vs → Context (m :: ms) b := fun b hb => ⟨m, List.mem_cons_self, name, as, hr, (here b).mp hb⟩
    obtain ⟨y, k1, k2, k3⟩ := among_spec (U := U) (dn := dn) vs (by
      intro v hv
      obtain ⟨p, hp, hn, b, hb, rfl⟩ := (g2 v).mp hv
      obtain ⟨d, hd⟩ := hall b (now b hv)
      exact ⟨b, d, rfl, hd⟩)
    cases y with
    | some d =>
      refine ⟨some d, by simp only [ofResults, g1, k1], fun d' e => ?_, nofun⟩
      cases e
      obtain ⟨b, hb, hm, hc⟩ := k2 d rfl
      exact ⟨b, now b hb, hm, hc⟩
    | none =>
      refine ⟨x, by simp only [ofResults, g1, k1, h1], fun d e => ?_, fun e v d hv hm => ?_⟩
      · obtain ⟨v, g1, g2⟩ := h2 d e
        exact ⟨v, tail g1, g2⟩
      · obtain ⟨m', hm', name', as', i1, i2⟩ := hv
        rcases List.mem_cons.mp hm' with rfl | hm'
        · rw [hr] at i1
          cases i1
          exact k3 rfl v d ((here v).mpr i2) hm
        · exact h3 e v d ⟨m', hm', name', as', i1, i2⟩ hm

/-- What can be said of a search for a naming context that did not raise, whatever the values are. -/
theorem among_ok (vs : List PyStr) (h : ∀ v ∈ vs, ∃ b, v = .bytes b) {x : Option Dn.Dn} (hx : among U dn vs = .ok x) :
    (∀ d, x = some d → ∃ b, .bytes b ∈ vs ∧ Means U b d ∧ Dn.Dn.contains U d dn = true) ∧ (x = none → ∀ b, .bytes b ∈ vs → ∃ d, Means U b d) := by
  induction vs with
  | nil => cases hx; exact ⟨nofun, fun _ _ h => by cases h⟩
  | cons v vs ih =>
    obtain ⟨b, rfl⟩ := h v List.mem_cons_self
    simp only [among] at hx
    cases hr : readName U (.bytes b) with
    | error e => rw [hr] at hx; cases hx
    | ok d =>
      rw [hr] at hx
      have hm := readName_means.mp hr
      simp only at hx
      split at hx
      · rename_i hc
        cases hx
        exact ⟨fun d' e => by cases e; exact ⟨b, List.mem_cons_self, hm, hc⟩, nofun⟩
      · obtain ⟨h1, h2⟩ := ih (fun v hv => h v (List.mem_cons_of_mem _ hv)) hx
        refine ⟨fun d' e => ?_, fun e b' hb' => ?_⟩
        · obtain ⟨b', g1, g2⟩ := h1 d' e
          exact ⟨b', List.mem_cons_of_mem _ g1, g2⟩
        · rcases List.mem_cons.mp hb' with h' | h'
          · cases h'; exact ⟨d, hm⟩
          · exact h2 e b' h'

theorem ofResults_ok (hU : Sane U) {c : Bool} {ms : List Obj} {es : List St} (hb : Brings U c ms es) {x : Option Dn.Dn}
    (hx : ofResults U dn es = .ok x) :
    (∀ d, x = some d → ∃ v, Context ms v ∧ Means U v d ∧ Dn.Dn.contains U d dn = true) ∧ (x = none → ∀ v, Context ms v → ∃ d, Means U v d) := by
  have tail : ∀ {m : Obj} {ms : List Obj} {v : Bytes}, Context ms v → Context (m :: ms) v := by
    rintro m ms v ⟨m', hm', h⟩
    exact ⟨m', List.mem_cons_of_mem _ hm', h⟩
  induction hb with
  | nil => cases hx; exact ⟨nofun, fun _ v ⟨_, h, _⟩ => by cases h⟩
  | @reference m ms us es hr _ ih =>
    obtain ⟨h2, h3⟩ := ih hx
    refine ⟨fun d e => ?_, fun e v hv => ?_⟩
    · obtain ⟨v, g1, g2⟩ := h2 d e
      exact ⟨v, tail g1, g2⟩
    · obtain ⟨m', hm', name, as, g1, g2⟩ := hv
      rcases List.mem_cons.mp hm' with rfl | hm'
      · rw [hr] at g1; cases g1
      · exact h3 e v ⟨m', hm', name, as, g1, g2⟩
  | @entry m ms e es name as hr hf _ ih =>
    obtain ⟨vs, g1, g2⟩ := contexts_found hU hf
    have here : ∀ b, .bytes b ∈ vs ↔ ∃ p ∈ as, fold p.1 = fold (ascii "namingContexts") ∧ b ∈ p.2 := by
      intro b
      rw [g2]
      constructor
      · rintro ⟨p, hp, hn, b', hb', e⟩
        cases e
        exact ⟨p, hp, hn, hb'⟩
      · rintro ⟨p, hp, hn, hb⟩
        exact ⟨p, hp, hn, b, hb, rfl⟩
    simp only [ofResults, g1] at hx
    cases ha : among U dn vs with
    | error y => rw [ha] at hx; cases hx
    | ok y =>
      rw [ha] at hx
      obtain ⟨k1, k2⟩ := among_ok vs (fun v hv => by obtain ⟨p, _, _, b, _, rfl⟩ := (g2 v).mp hv; exact ⟨b, rfl⟩) ha
      cases y with
      | some d =>
        cases hx
        refine ⟨fun d' e => ?_, nofun⟩
        obtain ⟨b, hb, hm⟩ := k1 d' e
        exact ⟨b, ⟨m, List.mem_cons_self, name, as, hr, (here b).mp hb⟩, hm⟩
      | none =>
        obtain ⟨h2, h3⟩ := ih hx
        refine ⟨fun d e => ?_, fun e v hv => ?_⟩
        · obtain ⟨v, g1, g2⟩ := h2 d e
          exact ⟨v, tail g1, g2⟩
        · obtain ⟨m', hm', name', as', i1, i2⟩ := hv
          rcases List.mem_cons.mp hm' with rfl | hm'
          · rw [hr] at i1
            cases i1
            exact k2 rfl v ((here v).mpr i2)
          · exact h3 e v ⟨m', hm', name', as', i1, i2⟩

theorem finished {r : ClientSearch.Running} (h : r.outcome = some .finished) : namingContext U dn r =
    match ofResults U dn r.entries with
    | .ok x => some (.ok x)
    | .error e => some (.error (.raised e)) := by
  simp only [namingContext, h]
  rfl

/-- No naming context is within another one. -/
def Apart (U : Unicode) (ms : List Obj) : Prop :=
  ∀ v v' d d', Context ms v → Context ms v' → Means U v d → Means U v' d' → foldDn U d <:+ foldDn U d' → foldDn U d = foldDn U d'

theorem suffix_total {α : Type} {a b l : List α} (h : a <:+ l) (h' : b <:+ l) : a <:+ b ∨ b <:+ a := by
  by_cases hl : a.length ≤ b.length
  · exact .inl (List.suffix_of_suffix_length_le h h' hl)
  · exact .inr (List.suffix_of_suffix_length_le h' h (by omega))

/-- **C87** What the Deferred of `namingContext` is given: a naming context in which the entry is, and nothing only if there is
none.  Missing for the whole property: that it is the nearest, if naming contexts are within each other. -/
theorem found_partial (hU : Sane U) (hq : C52.Quiet o) (ms : List Obj) (hm : ∀ m ∈ ms, Sound U m)
    (last : Obj) (e : Bytes) (hl : readOp last = some (.result .searchDone 0 [] e)) (hall : ∀ v, Context ms v → ∃ d, Means U v d) (dn : Dn.Dn) :
    ∃ x, namingContext U dn (ClientSearch.run U o ((ms ++ [last]).map .response)) = some (.ok x) ∧
      (∀ d, x = some d → (∃ v, Context ms v ∧ Means U v d) ∧ foldDn U d <:+ foldDn U dn ∧
        (Apart U ms → ∀ v' d', Context ms v' → Means U v' d' → foldDn U d' <:+ foldDn U dn → foldDn U d' <:+ foldDn U d)) ∧
      (x = none ↔ ∀ v d, Context ms v → Means U v d → ¬ foldDn U d <:+ foldDn U dn) := by
  obtain ⟨ho, hb⟩ := C52.succeeds hU hq ms hm last e hl
  obtain ⟨x, h1, h2, h3⟩ := ofResults_spec (dn := dn) hU hb hall
  refine ⟨x, by simp only [namingContext, ho, h1], ?_, ?_⟩
  · intro d e
    obtain ⟨v, g1, g2, g3⟩ := h2 d e
    have g3 := (C11.contains_iff_suffix U d dn).mp g3
    refine ⟨⟨v, g1, g2⟩, g3, fun ha v' d' g1' g2' g3' => ?_⟩
    rcases suffix_total g3' g3 with h | h
    · exact h
    · rw [ha v v' d d' g1 g1' g2 g2' h]
      exact List.suffix_rfl
  · constructor
    · intro e v d g1 g2 g3
      have := h3 e v d g1 g2
      rw [(C11.contains_iff_suffix U d dn).mpr g3] at this
      cases this
    · intro h
      cases x with
      | none => rfl
      | some d =>
        obtain ⟨v, g1, g2, g3⟩ := h2 d rfl
        exact absurd ((C11.contains_iff_suffix U d dn).mp g3) (h v d g1 g2)

/-- **C87** If the entry is in none of the naming contexts, and one of them is no DN, the Deferred is given an error other than
`NoContainingNamingContext`. -/
theorem unreadable (hU : Sane U) (hq : C52.Quiet o) (ms : List Obj) (hm : ∀ m ∈ ms, Sound U m)
    (last : Obj) (e : Bytes) (hl : readOp last = some (.result .searchDone 0 [] e)) (dn : Dn.Dn)
    (hno : ∀ v d, Context ms v → Means U v d → ¬ foldDn U d <:+ foldDn U dn) (v : Bytes) (hv : Context ms v) (hbad : ∀ d, ¬ Means U v d) :
    ∃ x, namingContext U dn (ClientSearch.run U o ((ms ++ [last]).map .response)) = some (.error (.raised x)) := by
  obtain ⟨ho, hb⟩ := C52.succeeds hU hq ms hm last e hl
  rw [finished ho]
  cases hx : ofResults U dn (ClientSearch.run U o ((ms ++ [last]).map .response)).entries with
  | error x => exact ⟨x, rfl⟩
  | ok x =>
    obtain ⟨h1, h2⟩ := ofResults_ok hU hb hx
    cases x with
    | none =>
      obtain ⟨d, hd⟩ := h2 rfl v hv
      exact absurd hd (hbad d)
    | some d =>
      obtain ⟨v', g1, g2, g3⟩ := h1 d rfl
      exact absurd ((C11.contains_iff_suffix U d dn).mp g3) (hno v' d g1 g2)

/-- **C87** If the search fails, so does the Deferred, with the failure of the search. -/
theorem fails (hU : Sane U) (hq : C52.Quiet o) (ms : List Obj) (hm : ∀ m ∈ ms, Sound U m) (last : Obj) (code : Int) (h0 : code ≠ 0)
    (h4 : code ≠ 4) (matched message : Bytes) (hl : readOp last = some (.result .searchDone code matched message)) (dn : Dn.Dn) :
    namingContext U dn (ClientSearch.run U o ((ms ++ [last]).map .response)) = some (.error (.search (.failed (.int code) (.bytes message)))) := by
  simp only [namingContext, C52.fails hU hq ms hm last code h0 h4 matched message hl]

/-! ### With the library's server -/

/-- The three attributes of the root DSE. -/
def dse (n : Tree.Node) : Spec.Attrs := [(ascii "supportedLDAPVersion", [ascii "3"]), (ascii "namingContexts", [Utf8.encode n.entry.dn.text]),
  (ascii "supportedExtension", [ascii "1.3.6.1.4.1.4203.1.11.1"])]

/-- **C87** A program asks for the naming context of an entry; what the client writes goes over the network to the server, in any
segments; what the server writes comes back, in any segments.  The Deferred is given the root of the tree if the DN of the entry
is within it, and fails otherwise. -/
theorem of_server (env : Env) (hU : Sane env.U) (luck : Luck) (st : State) (n : Tree.Node) (hn : st.heap[0]? = some n)
    (hfit : Fit (Utf8.encode n.entry.dn.text)) (htext : Textual n.entry.dn)
    (w : Client.World) (app : Client.App) (fuel c : Nat) (o : ClientSearch.Options) (hq : C52.Quiet o)
    (happ : Session.Searches env.U o w.deferreds.length app) (hnew : Session.responsesTo w.deferreds.length w.log = [])
    (hconn : (w.conns c).connected = true) (hid : 0 < w.nextId ∧ w.nextId < 2 ^ 31) (hfree : (w.conns c).onwire.lookup w.nextId = none)
    (dn : Dn.Dn) :
    let w₁ := Client.call app fuel w (.sendMultiEx c request none true)
    ∃ p out, p.d = w.deferreds.length ∧ w₁.log = w.log ++ [.made c w.nextId, .sent c w.nextId p request, .written c out] ∧
      ∀ segs, segs.flatten = out → ∃ sent back,
        (Conn.feed (Session.serverHandle env luck) (Conn.fresh (st, [])) segs).st = (st, sent) ∧
        (Conn.feed (Session.serverHandle env luck) (Conn.fresh (st, [])) segs).dead = false ∧
        Wires (sent.map fun x => .message x.1 x.2 none) back ∧
        ∀ segs', segs'.flatten = back →
          let s := Conn.feed (Session.clientHandle app fuel c) (Conn.fresh w₁) segs'
          let r := ClientSearch.run env.U o ((Session.responsesTo p.d s.st.log).map .response)
          s.dead = false ∧ .finished p.d ∈ s.st.log ∧
          namingContext env.U dn r = some (.ok (if Dn.Dn.contains env.U n.entry.dn dn then some n.entry.dn else none)) := by
  intro w₁
  have hf : FilterText.parseFilter "(objectClass=*)".toList = .ok (.present "objectClass".toList) := by
    have : (match FilterText.parseFilter "(objectClass=*)".toList with | .ok (.present a) => some a | _ => none) =
      some "objectClass".toList := by decide +kernel
    split at this
    · rename_i a h; rw [h, Option.some.inj this]
    · cases this
  have hreq : request = (Op.search [] 0 0 0 0 false (.present (ascii "objectClass")) [ascii "namingContexts"]).build := by
    have h1 : Utf8.encode (Dn.Dn.text []) = [] := by decide +kernel
    have h2 : (FilterText.Filter.present "objectClass".toList).obj = (Filter.present (ascii "objectClass")).build := rfl
    simp only [request, hf, Session.searchRequest, h1, h2]
    rfl
  obtain ⟨s, h1, h2, h3, he⟩ := C67.root_dse env luck st n hn hfit w.nextId hid 0x43 (.int 0) (.int 0) (.int 0) (.int 0)
    [.bytes (ascii "namingContexts")] [] (fun ⟨_, _, _, h, _⟩ => by cases h)
  rw [C41.noncritical_ignored env luck st _ _ [] (fun ⟨_, _, _, h, _⟩ => by cases h)] at h1
  have hread : readOp (received (Op.entry [] (dse n))) = some (.entry [] (dse n)) :=
    C75.readOp_sent (i := w.nextId) (by trivial) (he (.int w.nextId, (Op.entry [] (dse n)).build) (by rw [h3]; exact List.mem_cons_self))
  have hsound : Sound env.U (received (Op.entry [] (dse n))) := by
    refine .inr ⟨[], dse n, [], hread, ⟨[], by decide +kernel, by rfl⟩, ?_, ?_⟩
    · intro p hp
      have hnames : ∀ a ∈ [ascii "supportedLDAPVersion", ascii "namingContexts", ascii "supportedExtension"], (PyStr.bytes a).Ascii := by
        unfold PyStr.Ascii; decide +kernel
      exact hnames p.1 (by simpa [dse] using List.mem_map_of_mem (f := Prod.fst) hp)
    · have : [ascii "supportedLDAPVersion", ascii "namingContexts", ascii "supportedExtension"].Pairwise fun p q => fold p ≠ fold q := by
        decide +kernel
      exact (List.pairwise_map (f := Prod.fst) (R := fun p q => fold p ≠ fold q)).mp this
  have hsize : (Msg.mk w.nextId (.search [] 0 0 0 0 false (.present (ascii "objectClass")) [ascii "namingContexts"]) none).size < lengthLimit := by
    have h0 : (Op.search [] 0 0 0 0 false (.present (ascii "objectClass")) [ascii "namingContexts"]).size < 2 ^ 50 := by decide +kernel
    have := Server.two64_lt_limit
    simp only [Msg.size, controlsSize, elementSize, intSize] at h0 ⊢
    omega
  obtain ⟨out, hlog, hex⟩ := C75.exchange env hU luck st w app fuel c o hq happ hnew hconn hid hfree
    (.search [] 0 0 0 0 false (.present (ascii "objectClass")) [ascii "namingContexts"]) trivial rfl hsize s [.entry [] (dse n)] h1 h2 h3 he
    (fun op hop => by rw [List.mem_singleton.mp hop]; trivial) (fun op hop => by rw [List.mem_singleton.mp hop]; exact C75.isResponse_read hread)
    (fun op hop => by rw [List.mem_singleton.mp hop]; exact hsound)
  rw [← hreq] at hlog hex
  refine ⟨_, out, rfl, hlog, fun segs hsegs => ?_⟩
  obtain ⟨sent, back, g1, g2, g3, g4⟩ := hex segs hsegs
  refine ⟨sent, back, g1, g2, g3, fun segs' hsegs' => ?_⟩
  obtain ⟨k1, k2, k3, k4, k5⟩ := g4 segs' hsegs'
  refine ⟨k1, k2, ?_⟩
  have hctx : ∀ v, Context ([Op.entry [] (dse n)].map received) v ↔ v = Utf8.encode n.entry.dn.text := by
    intro v
    have h1 : fold (ascii "supportedLDAPVersion") ≠ fold (ascii "namingContexts") ∧ fold (ascii "supportedExtension") ≠ fold (ascii "namingContexts") := by
      decide +kernel
    constructor
    · rintro ⟨m, hm, name, as, g1, p, hp, g2, g3⟩
      rw [List.mem_singleton.mp hm, hread] at g1
      cases g1
      simp only [dse, List.mem_cons, List.not_mem_nil, or_false] at hp
      rcases hp with rfl | rfl | rfl
      · exact absurd g2 h1.1
      · exact List.mem_singleton.mp g3
      · exact absurd g2 h1.2
    · rintro rfl
      exact ⟨_, List.mem_singleton.mpr rfl, [], dse n, hread, (ascii "namingContexts", [Utf8.encode n.entry.dn.text]), by simp [dse], rfl,
        List.mem_singleton.mpr rfl⟩
  have hmeans : ∀ d, Means env.U (Utf8.encode n.entry.dn.text) d ↔ d = n.entry.dn := by
    intro d
    constructor
    · rintro ⟨t, e1, e2⟩
      rw [Utf8.decode_encode] at e1
      cases e1
      rw [C75.parse_text htext] at e2
      exact (Except.ok.inj e2).symm
    · rintro rfl
      exact ⟨_, Utf8.decode_encode _, C75.parse_text htext⟩
  obtain ⟨x, e1, e2, e3⟩ := ofResults_spec (dn := dn) hU k5 (fun v hv => by rw [(hctx v).mp hv]; exact ⟨_, (hmeans _).mpr rfl⟩)
  refine (finished k4).trans ?_
  rw [e1]
  refine congrArg some (congrArg Except.ok ?_)
  cases x with
  | none => rw [e3 rfl _ _ ((hctx _).mpr rfl) ((hmeans _).mpr rfl)]; rfl
  | some d =>
    obtain ⟨v, f1, f2, f3⟩ := e2 d rfl
    rw [(hctx v).mp f1] at f2
    rw [(hmeans d).mp f2] at f3 ⊢
    rw [f3]; rfl

/-- The directory and the process of C67 and C75; the entry below the root. -/
example := of_server C40.env asciiTables_sane C40.luck ⟨C67.heap, none⟩ _ rfl (by unfold Fit; decide +kernel) (C75.writable 0 _ rfl) C75.world
  (C75.program asciiTables C75.options 0) 0 0 C75.options (fun _ => rfl) (C75.program_searches _ _ _) rfl (by decide +kernel) (by decide +kernel)
  (by decide +kernel) C67.child.dn

/-! ### Naming contexts within each other -/

def a : Bytes := ascii "dc=a"
def b : Bytes := ascii "cn=b,dc=a"
def rdnA : Dn.Rdn := [⟨"dc".toList, "a".toList⟩]
def rdnB : Dn.Rdn := [⟨"cn".toList, "b".toList⟩]

/-- The answer of a server with these naming contexts. -/
def answer (vs : List Bytes) : List Obj := [.searchEntry 0x44 (.bytes []) [(.bytes (ascii "namingContexts"), vs.map .bytes)]]
def success : Obj := .result .searchResultDone 0x45 (.int 0) (.bytes []) (.bytes []) .none

def entryX : Dn.Dn := [[⟨"cn".toList, "x".toList⟩], rdnB, rdnA]

theorem answer_context (vs : List Bytes) (v : Bytes) : Context (answer vs) v ↔ v ∈ vs := by
  have hr : readOp (.searchEntry 0x44 (.bytes []) [(.bytes (ascii "namingContexts"), vs.map .bytes)]) =
      some (.entry [] [(ascii "namingContexts", vs)]) := by
    have : ∀ vs : List Bytes, allSome asBytes (vs.map .bytes) = some vs := by
      intro vs
      induction vs with
      | nil => rfl
      | cons v vs ih => simp [allSome, asBytes, ih]
    simp [readOp, allSome, readEntryAttr, asBytes, this]
  constructor
  · rintro ⟨m, hm, name, as, g1, p, hp, g2, g3⟩
    rw [List.mem_singleton.mp hm, hr] at g1
    cases g1
    rw [List.mem_singleton.mp hp] at g3
    exact g3
  · intro hv
    exact ⟨_, List.mem_singleton.mpr rfl, [], _, hr, _, List.mem_singleton.mpr rfl, rfl, hv⟩

/-- A server with two naming contexts that are apart: the hypotheses of `found_partial` can be met. -/
example : ∃ x, namingContext asciiTables entryX (ClientSearch.run asciiTables C75.options ((answer [ascii "dc=c", a] ++ [success]).map .response)) =
    some (.ok x) ∧ x = some [rdnA] := by
  have h1 : ∀ v ∈ [ascii "dc=c", a], ∃ d, Means asciiTables v d := by
    intro v hv
    rcases List.mem_cons.mp hv with rfl | hv
    · exact ⟨[[⟨"dc".toList, "c".toList⟩]], "dc=c".toList, by decide +kernel, by decide +kernel⟩
    · rw [List.mem_singleton.mp hv]
      exact ⟨[rdnA], "dc=a".toList, by decide +kernel, by decide +kernel⟩
  obtain ⟨x, g1, _, _⟩ := found_partial (o := C75.options) asciiTables_sane (fun _ => rfl) (answer [ascii "dc=c", a]) (by
      intro m hm
      rw [List.mem_singleton.mp hm]
      refine .inr ⟨[], [(ascii "namingContexts", [ascii "dc=c", a])], [], rfl, ⟨[], by decide +kernel, by rfl⟩, ?_, List.pairwise_singleton _ _⟩
      unfold PyStr.Ascii
      decide +kernel) success [] rfl (fun v hv => h1 v ((answer_context _ v).mp hv)) entryX
  refine ⟨x, g1, ?_⟩
  have : namingContext asciiTables entryX (ClientSearch.run asciiTables C75.options ((answer [ascii "dc=c", a] ++ [success]).map .response)) =
    some (.ok (some [rdnA])) := by decide +kernel
  rw [this] at g1
  cases g1
  rfl

/-- A server with one naming context that is no DN: the hypotheses of `unreadable` can be met. -/
example : ∃ x, namingContext asciiTables entryX (ClientSearch.run asciiTables C75.options ((answer [ascii "x"] ++ [success]).map .response)) =
    some (.error (.raised x)) := by
  have hbad : ∀ d, ¬ Means asciiTables (ascii "x") d := by
    intro d hd
    have h : (readName asciiTables (.bytes (ascii "x"))).isOk = false := by decide +kernel
    rw [readName_means.mpr hd] at h
    cases h
  refine unreadable (o := C75.options) asciiTables_sane (fun _ => rfl) (answer [ascii "x"]) (by
      intro m hm
      rw [List.mem_singleton.mp hm]
      refine .inr ⟨[], [(ascii "namingContexts", [ascii "x"])], [], rfl, ⟨[], by decide +kernel, by rfl⟩, ?_, List.pairwise_singleton _ _⟩
      unfold PyStr.Ascii
      decide +kernel) success [] rfl entryX (fun v d hv hm => ?_) (ascii "x") ((answer_context _ _).mpr List.mem_cons_self) hbad
  have := (answer_context _ v).mp hv
  rw [List.mem_singleton.mp this] at hm
  exact absurd hm (hbad d)

/-- **The property fails**: of two naming contexts, one within the other, the answer is the one that comes first in the set of
values, also if it is not the nearest.  (Python's sets are iterated in an order that may be another in each process.) -/
theorem nested_either : ∃ vs vs' : List Bytes, (∀ v, Context (answer vs) v ↔ Context (answer vs') v) ∧
    namingContext asciiTables entryX (ClientSearch.run asciiTables C75.options ((answer vs ++ [success]).map .response)) =
      some (.ok (some [rdnA])) ∧
    namingContext asciiTables entryX (ClientSearch.run asciiTables C75.options ((answer vs' ++ [success]).map .response)) =
      some (.ok (some [rdnB, rdnA])) := by
  refine ⟨[a, b], [b, a], fun v => ?_, by decide +kernel, by decide +kernel⟩
  rw [answer_context, answer_context]
  simp only [List.mem_cons, List.not_mem_nil, or_false]
  exact or_comm

end Verif.C87
