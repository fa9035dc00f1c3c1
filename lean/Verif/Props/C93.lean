import Verif.Model.FetchSchema
import Verif.Props.C57
import Verif.Props.C87
import Verif.Props.C75
/-
C93  The schema that is fetched is the one that is published.

`first_iff`: whatever a server answers, the second search is made at the DN that is the only value of `subschemaSubentry` of the only
entry found, and not at all otherwise.  `second_iff`, `fetched`: the Deferred is given exactly the descriptions that stand in the
only entry found there, each once, if there is at least one attribute type and all can be read; it fails otherwise.

`names_subentry`, `published`: if an entry in the tree of this library's server names another one as its subschema entry, and that one has the texts of
attribute types and object classes as values, then `fetch` gives just these attribute types and object classes: over the network,
in any segments.

`of_root`: the server's own root DSE has no `subschemaSubentry`; a fetch there fails.
-/
namespace Verif.C93
open Verif.Ldap Verif.Spec Verif.Spec.Modify Verif.Syntax Verif.FetchSchema
open Verif.Server (Env Luck State ascii)

variable {U : Unicode} {o : ClientSearch.Options}

/-- A value of an attribute that a server tells of. -/
def Value (as : Spec.Attrs) (key : Bytes) (b : Bytes) : Prop := ∃ p ∈ as, fold p.1 = fold key ∧ b ∈ p.2

/-- The entries among responses. -/
def entriesOf (ms : List Obj) : List (Bytes × Spec.Attrs) :=
  ms.filterMap fun m => match readOp m with | some (.entry name as) => some (name, as) | _ => none

/-- A name of an attribute, as text and as octets. -/
structure Key (key : String) : Prop where
  octets : (PyStr.text key.toList).toBytes = ascii key
  ascii : (PyStr.text key.toList).Ascii

theorem key_sub : Key "subschemaSubentry" := ⟨by decide +kernel, by unfold PyStr.Ascii; decide +kernel⟩
theorem key_ats : Key "attributeTypes" := ⟨by decide +kernel, by unfold PyStr.Ascii; decide +kernel⟩
theorem key_ocs : Key "objectClasses" := ⟨by decide +kernel, by unfold PyStr.Ascii; decide +kernel⟩

theorem target_cases {V : Vocabulary} (hU : Sane U) {e : St} (hn : V.Named e.attrs) (hr : e.deleted = false) {key : String} (hk : Key key) :
    (∃ p ∈ e.attrs, target U e (.text key.toList) = .ok p ∧ ∀ v, Has e.attrs (fold (ascii key)) v ↔ v ∈ p.2) ∨
    (target U e (.text key.toList) = .error (.py .keyError) ∧ ∀ v, ¬ Has e.attrs (fold (ascii key)) v) := by
  have hkb := hk.octets
  by_cases hx : ∃ p ∈ e.attrs, fold p.1.toBytes = fold (ascii key)
  · obtain ⟨p, hp, hf⟩ := hx
    refine .inl ⟨p, hp, target_found hU hn hr hk.ascii hp (by rw [hkb]; exact hf), fun v => ?_⟩
    constructor
    · rintro ⟨q, hq, hqn, hv⟩
      rw [← Named.unique hn hq hp (hqn.trans hf.symm)]
      exact hv
    · intro hv; exact ⟨p, hp, hf, hv⟩
  · refine .inr ⟨?_, fun v ⟨q, hq, hqn, _⟩ => hx ⟨q, hq, hqn⟩⟩
    cases ht : target U e (.text key.toList) with
    | ok p =>
      obtain ⟨hp, _, y, hy, hl⟩ := target_mem ht
      refine absurd ⟨p, hp, ?_⟩ hx
      have hyA : y.Ascii := by unfold PyStr.Ascii; rw [hy]; exact hk.ascii
      have := Match.sameName_lower hU (hn.names p hp).ascii hyA hl
      unfold SameName at this
      rw [hy, hkb] at this
      exact this
    | error x =>
      obtain ⟨l, hl⟩ := PyStr.getStrings_total.mp (PyStr.ascii_decodable hk.ascii)
      unfold target at ht
      rw [hr, hl] at ht
      simp only [Bool.false_eq_true, if_false] at ht
      split at ht
      · cases ht; rfl
      · cases ht

/-- What `get` gives: the values, each once. -/
theorem get_spec (hU : Sane U) {e : St} (hn : allOctets.Named e.attrs) (hs : ∀ p ∈ e.attrs, p.2.Nodup) (hr : e.deleted = false) {key : String}
    (hk : Key key) : ∃ vs, FetchSchema.get U e key = .ok vs ∧ vs.Nodup ∧ ∀ v, v ∈ vs ↔ Has e.attrs (fold (ascii key)) v := by
  rcases target_cases hU hn hr hk with ⟨p, hp, ht, hv⟩ | ⟨ht, hv⟩
  · exact ⟨p.2, by simp only [FetchSchema.get, ht], hs p hp, fun v => (hv v).symm⟩
  · exact ⟨[], by simp only [FetchSchema.get, ht], List.nodup_nil, fun v => ⟨fun h => by (cases h), fun h => absurd h (hv v)⟩⟩

/-- The one entry of which it is the only value. -/
theorem subschema_iff (hU : Sane U) {e : St} (hn : allOctets.Named e.attrs) (hs : ∀ p ∈ e.attrs, p.2.Nodup) (hr : e.deleted = false) (v : PyStr) :
    subschema U [e] = .ok v ↔ ∀ u, Has e.attrs (fold (ascii "subschemaSubentry")) u ↔ u = v := by
  have key : ∀ l : List PyStr, l.Nodup → ((∀ u, u ∈ l ↔ u = v) ↔ l = [v]) := by
    intro l hl
    constructor
    · intro h
      match l, hl with
      | [], _ => exact absurd ((h v).mpr rfl) (by simp)
      | [x], _ => rw [(h x).mp List.mem_cons_self]
      | x :: y :: l, hl =>
        have h1 := (h x).mp List.mem_cons_self
        have h2 := (h y).mp (List.mem_cons_of_mem _ List.mem_cons_self)
        simp [h1, h2] at hl
    · rintro rfl u; simp
  rcases target_cases hU hn hr key_sub with ⟨p, hp, ht, hv⟩ | ⟨ht, hv⟩
  · simp only [hv]
    rw [key p.2 (hs p hp)]
    simp only [subschema, ht]
    obtain ⟨a, vs⟩ := p
    match vs with
    | [] => simp
    | [x] => simp
    | x :: y :: l => simp
  · simp only [subschema, ht]
    constructor
    · intro h; cases h
    · intro h; exact absurd ((h v).mpr rfl) (hv v)

theorem readAll_ok {α : Type} {parse : Bytes → Py α} (l : List Bytes) {as : List α} :
    readAll parse (l.map PyStr.bytes) = .ok as ↔ l.map parse = as.map .ok := by
  induction l generalizing as with
  | nil => cases as <;> simp [readAll]
  | cons b l ih =>
    simp only [List.map_cons, readAll]
    have hb : (PyStr.bytes b).toBytes = b := rfl
    rw [hb]
    cases hp : parse b with
    | error x => cases as <;> simp
    | ok a =>
      simp only
      cases hr : readAll parse (l.map PyStr.bytes) with
      | error f =>
        cases as with
        | nil => simp
        | cons a' as =>
          have := (not_congr (ih (as := as))).mp (by rw [hr]; nofun)
          simp only [List.map_cons, List.cons.injEq, reduceCtorEq, false_iff]
          exact fun h => this h.2
      | ok as' =>
        have h1 := ih.mp hr
        cases as with
        | nil => simp
        | cons a' as =>
          simp only [Except.ok.injEq, List.map_cons, List.cons.injEq, h1]
          constructor
          · rintro ⟨rfl, rfl⟩; exact ⟨rfl, rfl⟩
          · rintro ⟨rfl, h⟩
            exact ⟨rfl, List.map_injective_iff.mpr (fun _ _ h => Except.ok.inj h) h⟩

/-- All values are octets. -/
theorem as_bytes {vs : List PyStr} (h : ∀ v ∈ vs, ∃ b, v = .bytes b) : ∃ l : List Bytes, vs = l.map .bytes := by
  induction vs with
  | nil => exact ⟨[], rfl⟩
  | cons v vs ih =>
    obtain ⟨b, rfl⟩ := h v List.mem_cons_self
    obtain ⟨l, rfl⟩ := ih fun v hv => h v (List.mem_cons_of_mem _ hv)
    exact ⟨b :: l, rfl⟩

/-- A list of the values: each once. -/
structure Lists (P : Bytes → Prop) (l : List Bytes) : Prop where
  once : l.Nodup
  all : ∀ b, b ∈ l ↔ P b

theorem nodup_of_map {l : List Bytes} (h : (l.map PyStr.bytes).Nodup) : l.Nodup := by
  induction l with
  | nil => exact List.nodup_nil
  | cons b l ih =>
    rw [List.map_cons, List.nodup_cons] at h
    exact List.nodup_cons.mpr ⟨fun hb => h.1 (List.mem_map_of_mem hb), ih h.2⟩

theorem get_lists (hU : Sane U) {e : St} (hn : allOctets.Named e.attrs) (hs : ∀ p ∈ e.attrs, p.2.Nodup) (hr : e.deleted = false) {key : String}
    (hk : Key key) {P : Bytes → Prop} (hP : ∀ v, Has e.attrs (fold (ascii key)) v ↔ ∃ b, P b ∧ v = .bytes b) :
    ∃ l, FetchSchema.get U e key = .ok (l.map .bytes) ∧ Lists P l := by
  obtain ⟨vs, h1, h2, h3⟩ := get_spec hU hn hs hr hk
  obtain ⟨l, rfl⟩ := as_bytes fun v hv => by
    obtain ⟨b, _, rfl⟩ := (hP v).mp ((h3 v).mp hv)
    exact ⟨b, rfl⟩
  refine ⟨l, h1, nodup_of_map h2, fun b => ?_⟩
  have hb : b ∈ l ↔ PyStr.bytes b ∈ l.map PyStr.bytes :=
    ⟨fun h => List.mem_map_of_mem h, fun h => by obtain ⟨c, hc, e⟩ := List.mem_map.mp h; rwa [← PyStr.bytes.inj e]⟩
  rw [hb, h3, hP]
  exact ⟨fun ⟨c, hc, e⟩ => by rwa [PyStr.bytes.inj e], fun h => ⟨b, h, rfl⟩⟩

/-- The one entry: what is made of it. -/
theorem descriptions_one (hU : Sane U) {e : St} (hn : allOctets.Named e.attrs) (hs : ∀ p ∈ e.attrs, p.2.Nodup) (hr : e.deleted = false)
    {P Q : Bytes → Prop} (hP : ∀ v, Has e.attrs (fold (ascii "attributeTypes")) v ↔ ∃ b, P b ∧ v = .bytes b)
    (hQ : ∀ v, Has e.attrs (fold (ascii "objectClasses")) v ↔ ∃ b, Q b ∧ v = .bytes b) :
    ∃ l l', Lists P l ∧ Lists Q l' ∧ ∀ ats ocs, descriptions U [e] = .ok (ats, ocs) ↔
      l.map Schema.AttributeType.parse = ats.map .ok ∧ l'.map Schema.ObjectClass.parse = ocs.map .ok ∧ l ≠ [] := by
  obtain ⟨l, h1, h2⟩ := get_lists hU hn hs hr key_ats hP
  obtain ⟨l', h1', h2'⟩ := get_lists hU hn hs hr key_ocs hQ
  refine ⟨l, l', h2, h2', fun ats ocs => ?_⟩
  simp only [descriptions, h1, h1']
  have e1 : ∀ ats, readAll Schema.AttributeType.parse (l.map .bytes) = .ok ats ↔ l.map Schema.AttributeType.parse = ats.map .ok :=
    fun ats => readAll_ok l
  have e2 : ∀ ocs, readAll Schema.ObjectClass.parse (l'.map .bytes) = .ok ocs ↔ l'.map Schema.ObjectClass.parse = ocs.map .ok :=
    fun ocs => readAll_ok l'
  have hlen : ∀ ats : List Schema.AttributeType, l.map Schema.AttributeType.parse = ats.map .ok → (ats = [] ↔ l = []) := by
    intro ats h
    have := congrArg List.length h
    simp only [List.length_map] at this
    rw [← List.length_eq_zero_iff, ← List.length_eq_zero_iff, this]
  rw [← e1, ← e2]
  cases ha : readAll Schema.AttributeType.parse (l.map .bytes) with
  | error f => simp
  | ok ats' =>
    cases hb : readAll Schema.ObjectClass.parse (l'.map .bytes) with
    | error f => simp
    | ok ocs' =>
      have := hlen ats' ((e1 ats').mp ha)
      simp only [this]
      split
      · rename_i hl; simp [hl]
      · rename_i hl; simp [hl]

/-! ### Whatever a server answers -/

theorem brings_entries {c : Bool} {ms : List Obj} {es : List St} (hb : Brings U c ms es) :
    Each (fun (x : Bytes × Spec.Attrs) e => FoundAs U c x.1 x.2 e) (entriesOf ms) es := by
  induction hb with
  | nil => exact .nil
  | @reference m ms us es hr _ ih =>
    have : entriesOf (m :: ms) = entriesOf ms := by simp [entriesOf, hr]
    rw [this]; exact ih
  | @entry m ms e es name as hr hf _ ih =>
    have : entriesOf (m :: ms) = (name, as) :: entriesOf ms := by simp [entriesOf, hr]
    rw [this]; exact .cons hf ih

theorem has_value {c : Bool} {name : Bytes} {as : Spec.Attrs} {e : St} (h : FoundAs U c name as e) (key : Bytes) (v : PyStr) :
    Has e.attrs (fold key) v ↔ ∃ b, Value as key b ∧ v = .bytes b := by
  rw [h.attrs]
  constructor
  · rintro ⟨p, hp, hn, b, hb, rfl⟩; exact ⟨b, ⟨p, hp, hn, hb⟩, rfl⟩
  · rintro ⟨b, ⟨p, hp, hn, hb⟩, rfl⟩; exact ⟨p, hp, hn, b, hb, rfl⟩

/-- Where the second search is made. -/
theorem first_iff (hU : Sane U) (hq : C52.Quiet o) (ms : List Obj) (hm : ∀ m ∈ ms, Sound U m) (last : Obj) (message : Bytes)
    (hl : readOp last = some (.result .searchDone 0 [] message)) (d : Dn.Dn) :
    first U (ClientSearch.run U o ((ms ++ [last]).map .response)) = some (.ok d) ↔
      ∃ name as v, entriesOf ms = [(name, as)] ∧ (∀ b, Value as (ascii "subschemaSubentry") b ↔ b = v) ∧ Means U v d := by
  obtain ⟨ho, hb⟩ := C52.succeeds hU hq ms hm last message hl
  have hE := brings_entries hb
  generalize (ClientSearch.run U o ((ms ++ [last]).map .response)) = r at ho hE ⊢
  simp only [first, ho]
  generalize entriesOf ms = xs at hE
  generalize r.entries = es at hE
  match xs, es, hE with
  | [], [], _ => simp [subschema]
  | [(name, as)], [e], .cons hf .nil =>
    have hs := subschema_iff hU hf.named hf.sets hf.ready
    constructor
    · intro h
      cases hsub : subschema U [e] with
      | error f => rw [hsub] at h; cases h
      | ok v =>
        rw [hsub] at h
        have hv := (hs v).mp hsub
        obtain ⟨b, hb, rfl⟩ := (has_value hf _ v).mp ((hv v).mpr rfl)
        simp only at h
        cases hr : NamingContext.readName U (.bytes b) with
        | error x => rw [hr] at h; cases h
        | ok d' =>
          rw [hr] at h
          cases h
          refine ⟨name, as, b, rfl, fun b' => ?_, C87.readName_means.mp hr⟩
          constructor
          · intro hb'
            exact PyStr.bytes.inj ((hv _).mp ((has_value hf _ _).mpr ⟨b', hb', rfl⟩))
          · rintro rfl; exact hb
    · rintro ⟨_, _, v, e', hv, hm⟩
      cases e'
      have : subschema U [e] = .ok (.bytes v) := (hs _).mpr fun u => by
        rw [has_value hf]
        constructor
        · rintro ⟨b, hb, rfl⟩; rw [(hv b).mp hb]
        · rintro rfl; exact ⟨v, (hv v).mpr rfl, rfl⟩
      rw [this]
      simp only [C87.readName_means.mpr hm]
  | x :: y :: xs, e :: f :: es, .cons _ (.cons _ _) => simp [subschema]

/-- What `fetch` gives: the descriptions in the only entry, each once. -/
theorem fetched (hU : Sane U) (hq : C52.Quiet o) (ms : List Obj) (hm : ∀ m ∈ ms, Sound U m) (last : Obj) (message : Bytes)
    (hl : readOp last = some (.result .searchDone 0 [] message)) {ats : List Schema.AttributeType} {ocs : List Schema.ObjectClass}
    (h : second U (ClientSearch.run U o ((ms ++ [last]).map .response)) = some (.ok (ats, ocs))) :
    ∃ name as l l', entriesOf ms = [(name, as)] ∧ Lists (Value as (ascii "attributeTypes")) l ∧ Lists (Value as (ascii "objectClasses")) l' ∧
      l.map Schema.AttributeType.parse = ats.map .ok ∧ l'.map Schema.ObjectClass.parse = ocs.map .ok ∧ ats ≠ [] := by
  obtain ⟨ho, hb⟩ := C52.succeeds hU hq ms hm last message hl
  have hE := brings_entries hb
  generalize (ClientSearch.run U o ((ms ++ [last]).map .response)) = r at ho hE h
  simp only [second, ho] at h
  generalize entriesOf ms = xs at hE ⊢
  generalize r.entries = es at hE h
  match xs, es, hE with
  | [], [], _ => simp [descriptions] at h
  | [(name, as)], [e], .cons hf .nil =>
    obtain ⟨l, l', h1, h2, h3⟩ := descriptions_one hU hf.named hf.sets hf.ready (has_value hf (ascii "attributeTypes")) (has_value hf (ascii "objectClasses"))
    obtain ⟨g1, g2, g3⟩ := (h3 ats ocs).mp (Option.some.inj h)
    refine ⟨name, as, l, l', rfl, h1, h2, g1, g2, ?_⟩
    rintro rfl
    simp only [List.map_nil, List.map_eq_nil_iff] at g1
    exact g3 g1
  | x :: y :: xs, e :: f :: es, .cons _ (.cons _ _) => simp [descriptions] at h

theorem all_parse {α : Type} {parse : Bytes → Py α} {l : List Bytes} (h : ∀ b ∈ l, ∃ t, parse b = .ok t) : ∃ as : List α, l.map parse = as.map .ok := by
  induction l with
  | nil => exact ⟨[], rfl⟩
  | cons b l ih =>
    obtain ⟨t, ht⟩ := h b List.mem_cons_self
    obtain ⟨as, has⟩ := ih fun b hb => h b (List.mem_cons_of_mem _ hb)
    exact ⟨t :: as, by simp only [List.map_cons, ht, has]⟩

/-- When `fetch` gives something. -/
theorem second_iff (hU : Sane U) (hq : C52.Quiet o) (ms : List Obj) (hm : ∀ m ∈ ms, Sound U m) (last : Obj) (message : Bytes)
    (hl : readOp last = some (.result .searchDone 0 [] message)) :
    (∃ x, second U (ClientSearch.run U o ((ms ++ [last]).map .response)) = some (.ok x)) ↔
      ∃ name as, entriesOf ms = [(name, as)] ∧ (∃ b, Value as (ascii "attributeTypes") b) ∧
        (∀ b, Value as (ascii "attributeTypes") b → ∃ t, Schema.AttributeType.parse b = .ok t) ∧
        ∀ b, Value as (ascii "objectClasses") b → ∃ t, Schema.ObjectClass.parse b = .ok t := by
  constructor
  · rintro ⟨⟨ats, ocs⟩, h⟩
    obtain ⟨name, as, l, l', h1, h2, h3, h4, h5, h6⟩ := fetched hU hq ms hm last message hl h
    have hp : ∀ {α : Type} {parse : Bytes → Py α} {l : List Bytes} {as : List α}, l.map parse = as.map .ok → ∀ b ∈ l, ∃ t, parse b = .ok t := by
      intro α parse l as h b hb
      have := List.mem_map_of_mem (f := parse) hb
      rw [h] at this
      obtain ⟨t, _, e⟩ := List.mem_map.mp this
      exact ⟨t, e.symm⟩
    refine ⟨name, as, h1, ?_, fun b hb => hp h4 b ((h2.all b).mpr hb), fun b hb => hp h5 b ((h3.all b).mpr hb)⟩
    cases l with
    | nil =>
      simp only [List.map_nil] at h4
      exact absurd (List.map_eq_nil_iff.mp h4.symm) h6
    | cons b l => exact ⟨b, (h2.all b).mp List.mem_cons_self⟩
  · rintro ⟨name, as, h1, ⟨b, hb⟩, h2, h3⟩
    obtain ⟨ho, hbr⟩ := C52.succeeds hU hq ms hm last message hl
    have hE := brings_entries hbr
    generalize (ClientSearch.run U o ((ms ++ [last]).map .response)) = r at ho hE ⊢
    rw [h1] at hE
    simp only [second, ho]
    generalize r.entries = es at hE ⊢
    match es, hE with
    | [e], .cons hf .nil =>
      obtain ⟨l, l', g1, g2, g3⟩ := descriptions_one hU hf.named hf.sets hf.ready (has_value hf (ascii "attributeTypes")) (has_value hf (ascii "objectClasses"))
      obtain ⟨ats, hats⟩ := all_parse fun b hb => h2 b ((g1.all b).mp hb)
      obtain ⟨ocs, hocs⟩ := all_parse fun b hb => h3 b ((g2.all b).mp hb)
      exact ⟨(ats, ocs), congrArg some ((g3 ats ocs).mpr ⟨hats, hocs, List.ne_nil_of_mem ((g1.all b).mpr hb)⟩)⟩

/-- A search that fails makes `fetch` fail, with the same failure. -/
theorem fails (hU : Sane U) (hq : C52.Quiet o) (ms : List Obj) (hm : ∀ m ∈ ms, Sound U m) (last : Obj) (code : Int) (h0 : code ≠ 0)
    (h4 : code ≠ 4) (matched message : Bytes) (hl : readOp last = some (.result .searchDone code matched message)) :
    first U (ClientSearch.run U o ((ms ++ [last]).map .response)) = some (.error (.search (.failed (.int code) (.bytes message)))) ∧
    second U (ClientSearch.run U o ((ms ++ [last]).map .response)) = some (.error (.search (.failed (.int code) (.bytes message)))) := by
  have := C52.fails hU hq ms hm last code h0 h4 matched message hl
  exact ⟨by simp only [first, this], by simp only [second, this]⟩

/-! ### With this library's server -/

/-- A process can search on the connection: it is connected, and runs the search in the code of C52. -/
structure CanSearch (U : Unicode) (app : Client.App) (c : Nat) (o : ClientSearch.Options) (w : Client.World) : Prop where
  quiet : C52.Quiet o
  searches : Session.Searches U o w.deferreds.length app
  new : Session.responsesTo w.deferreds.length w.log = []
  connected : (w.conns c).connected = true
  id : 0 < w.nextId ∧ w.nextId < 2 ^ 31
  free : (w.conns c).onwire.lookup w.nextId = none

theorem filter_read : FilterText.parseFilter "(objectClass=*)".toList = .ok (.present "objectClass".toList) := by
  have : (match FilterText.parseFilter "(objectClass=*)".toList with | .ok (.present a) => some a | _ => none) =
    some "objectClass".toList := by decide +kernel
  split at this
  · rename_i a h; rw [h, Option.some.inj this]
  · cases this

theorem request_eq (d : Dn.Dn) (wanted : List Bytes) :
    request d wanted = (Op.search (Utf8.encode d.text) 0 0 1 0 false (.present (ascii "objectClass")) wanted).build := by
  have h2 : (FilterText.Filter.present "objectClass".toList).obj = (Filter.present (ascii "objectClass")).build := rfl
  simp only [request, filter_read, Session.searchRequest, h2, Op.build, boolVal]

/-- The search for one entry that has an object class gives that entry. -/
theorem one_entry (env : Env) (hU : Sane env.U) (luck : Luck) (st : State) (hb : C67.Built env st.heap) (w : Client.World)
    (app : Client.App) (fuel c : Nat) (o : ClientSearch.Options) (hw : CanSearch env.U app c o w) (d : Dn.Dn) (hd : Textual d) (hne : d ≠ [])
    (hfit : Fit (Utf8.encode d.text)) (wanted : List Bytes) (hwant : ∀ k ∈ wanted, (PyStr.bytes k).Ascii)
    (hdist : wanted.Pairwise fun j k => fold j ≠ fold k) (hsmall : wanted.length ≤ 2 ∧ ∀ k ∈ wanted, k.length < 2 ^ 32)
    (j : Nat) (hj : Tree.lookup env.U st.heap 0 d = .ok j) (n : Tree.Node) (hn : st.heap[j]? = some n) (hs : C67.Sendable n.entry wanted)
    (ht : Textual n.entry.dn) (hoc : ∃ vs, HasAttr n.entry (.bytes (ascii "objectClass")) vs) :
    Searched env luck app fuel c o w (request d wanted) st fun r =>
      r.outcome = some .finished ∧ ∃ e, r.entries = [e] ∧ Copy n.entry wanted o.complete e := by
  have hlt := (List.getElem?_eq_some_iff.mp hn).1
  have hok : Match.eval env.U n.entry (Filter.present (ascii "objectClass")).sem = .ok true := by
    obtain ⟨vs, hvs⟩ := hoc
    exact (C17.eval_iff_partial env.U hU n.entry hs.named _ (.present _ (by unfold PyStr.Ascii; decide +kernel)) true).mpr (.present_yes _ vs hvs)
  have hat : ∀ k m, C26.InScope st.heap j .base k → st.heap[k]? = some m → m = n := by
    intro k m hk hm
    cases hk
    rw [hn] at hm; exact (Option.some.inj hm).symm
  have hsize : (Msg.mk w.nextId (.search (Utf8.encode d.text) 0 0 1 0 false (.present (ascii "objectClass")) wanted) none).size < lengthLimit := by
    have h1 : (Utf8.encode d.text).length < 2 ^ 32 := hfit
    have h2 : (Filter.present (ascii "objectClass")).size ≤ 2 ^ 10 := by decide +kernel
    have h4 := Server.two64_lt_limit
    have h5 : ∀ l : List Bytes, l.length ≤ 2 → (∀ k ∈ l, k.length < 2 ^ 32) → sizeSum octSize l < 2 ^ 40 := by
      intro l hl hk
      match l, hl, hk with
      | [], _, _ => decide +kernel
      | [a], _, hk =>
        have := hk a (by simp)
        simp only [sizeSum, octSize, elementSize]
        omega
      | [a, b], _, hk =>
        have := hk a (by simp)
        have := hk b (by simp)
        simp only [sizeSum, octSize, elementSize]
        omega
    have h6 := h5 wanted hsmall.1 hsmall.2
    simp only [Msg.size, Op.size, controlsSize, elementSize, intSize, octSize, boolSize]
    generalize (Filter.present (ascii "objectClass")).size = fs at h2 ⊢
    generalize sizeSum octSize wanted = ws at h6 ⊢
    generalize (Utf8.encode d.text).length = ds at h1 ⊢
    have h7 : w.nextId.natAbs < 2 ^ 31 := by have := hw.id; omega
    generalize lengthLimit = limit at h4 ⊢
    generalize w.nextId.natAbs = i at h7 ⊢
    simp only [Int.natAbs_zero, Int.natAbs_one]
    have h8 : i + ds + fs + ws + 5000 < limit := by omega
    clear hsmall h5 h1 h2 h4 h6 h7
    generalize hk : 129 = k
    omega
  obtain ⟨out, hlog, hex⟩ := C75.search env hU luck st hb w app fuel c o hw.quiet hw.searches hw.new hw.connected hw.id hw.free d hd 0 0 1 0 false
    (.present (ascii "objectClass")) wanted hwant (fun _ => hdist) .base .base (.inl hne) j hj hlt
    (fun k hk m hm => ⟨true, by rw [hat k m hk hm]; exact hok⟩) (fun k m hk hm => by rw [hat k m hk hm]; exact ⟨hs, ht⟩) hsize
  unfold Searched
  rw [request_eq]
  refine ⟨_, out, rfl, hlog, fun segs hsegs => ?_⟩
  obtain ⟨sent, back, g1, g2, g3, g4⟩ := hex segs hsegs
  refine ⟨sent, back, g1, g2, g3, fun segs' hsegs' => ?_⟩
  obtain ⟨k1, k2, k3, k4, ks, k5, k6, k7, _⟩ := g4 segs' hsegs'
  refine ⟨k1, k2, k4, ?_⟩
  have hks : ks = [j] := by
    have hmem : ∀ k, k ∈ ks ↔ k = j := fun k => (k6 k).trans ⟨fun h => h.1, fun h => ⟨h, by subst h; exact ⟨n, hn, hok⟩⟩⟩
    match ks, k7 with
    | [], _ => exact absurd ((hmem j).mpr rfl) (by simp)
    | [x], _ => rw [(hmem x).mp List.mem_cons_self]
    | x :: y :: l, hl =>
      have h1 := (hmem x).mp List.mem_cons_self
      have h2 := (hmem y).mp (List.mem_cons_of_mem _ List.mem_cons_self)
      simp [h1, h2] at hl
  subst hks
  revert k5
  generalize (ClientSearch.run env.U o _).entries = es
  intro k5
  cases k5 with
  | cons hx hrest =>
    cases hrest
    obtain ⟨m, hm, hc⟩ := hx
    rw [hn] at hm
    cases hm
    exact ⟨_, rfl, hc⟩

theorem Searched.mono {env : Env} {luck : Luck} {app : Client.App} {fuel c : Nat} {w : Client.World} {req : Obj} {st : State}
    {P Q : ClientSearch.Running → Prop} (h : Searched env luck app fuel c o w req st P) (hPQ : ∀ r, P r → Q r) :
    Searched env luck app fuel c o w req st Q := by
  obtain ⟨p, out, h1, h2, h3⟩ := h
  refine ⟨p, out, h1, h2, fun segs hsegs => ?_⟩
  obtain ⟨sent, back, g1, g2, g3, g4⟩ := h3 segs hsegs
  refine ⟨sent, back, g1, g2, g3, fun segs' hsegs' => ?_⟩
  obtain ⟨k1, k2, k3⟩ := g4 segs' hsegs'
  exact ⟨k1, k2, hPQ _ k3⟩

theorem copy_has {e : Entry} (he : WellNamed e) {wanted : List Bytes} {b : Bool} {x : St} (hc : Copy e wanted b x) {key : Bytes}
    (hk : key ∈ wanted) {vs : List PyStr} (ha : HasAttr e (.bytes key) vs) (v : PyStr) :
    Has x.attrs (fold key) v ↔ ∃ u ∈ vs, v = .bytes u.toBytes := by
  rw [hc.attrs]
  obtain ⟨k, hm, hsame⟩ := ha
  have hsame' : fold k.toBytes = fold key := hsame
  constructor
  · rintro ⟨⟨a, ws, u, h1, h2, h3, rfl⟩, _⟩
    have : (a, ws) = (k, vs) := by
      refine Classical.byContradiction fun hne => ?_
      have hd : e.attrs.Pairwise fun p q => p ≠ q → ¬ SameName p.1 q.1 := he.distinct.imp fun {a b} h (_ : a ≠ b) => h
      have hd' : e.attrs.Pairwise (flip fun p q => p ≠ q → ¬ SameName p.1 q.1) := he.distinct.imp fun {a b} h (_ : b ≠ a) h' => h h'.symm
      exact List.Pairwise.forall_of_forall_of_flip (fun p _ h => absurd rfl h) hd hd' h1 hm hne (h2.trans hsame'.symm)
    cases this
    exact ⟨u, h3, rfl⟩
  · rintro ⟨u, hu, rfl⟩
    exact ⟨⟨k, vs, u, hm, hsame', hu, rfl⟩, fun _ => ⟨key, hk, rfl⟩⟩

/-- An entry that names its subschema entry: the second search is made there. -/
theorem names_subentry (env : Env) (hU : Sane env.U) (luck : Luck) (st : State) (hb : C67.Built env st.heap) (w : Client.World)
    (app : Client.App) (fuel c : Nat) (o : ClientSearch.Options) (hw : CanSearch env.U app c o w) (d : Dn.Dn) (hd : Textual d) (hne : d ≠ [])
    (hfit : Fit (Utf8.encode d.text)) (j : Nat) (hj : Tree.lookup env.U st.heap 0 d = .ok j) (n : Tree.Node) (hn : st.heap[j]? = some n)
    (hs : C67.Sendable n.entry [ascii "subschemaSubentry"]) (ht : Textual n.entry.dn)
    (hoc : ∃ vs, HasAttr n.entry (.bytes (ascii "objectClass")) vs) (d' : Dn.Dn) (hd' : Textual d')
    (hsub : HasAttr n.entry (.bytes (ascii "subschemaSubentry")) [.bytes (Utf8.encode d'.text)]) :
    Searched env luck app fuel c o w (firstRequest d) st fun r => first env.U r = some (.ok d') := by
  refine Searched.mono (one_entry env hU luck st hb w app fuel c o hw d hd hne hfit [ascii "subschemaSubentry"]
    (by unfold PyStr.Ascii; decide +kernel) (List.pairwise_singleton _ _) (by decide +kernel) j hj n hn hs ht hoc) ?_
  rintro r ⟨h1, e, h2, h3⟩
  have : subschema env.U [e] = .ok (.bytes (Utf8.encode d'.text)) := by
    refine (subschema_iff hU h3.named h3.sets h3.ready _).mpr fun u => ?_
    rw [copy_has hs.named h3 List.mem_cons_self hsub]
    simp [PyStr.toBytes]
  have hr : NamingContext.readName env.U (.bytes (Utf8.encode d'.text)) = .ok d' :=
    C87.readName_means.mpr ⟨_, Utf8.decode_encode _, C75.parse_text hd'⟩
  simp only [first, h1, h2, this, hr]

theorem parsed_perm {α : Type} [DecidableEq α] {parse : Bytes → Py α} {text : α → Bytes} {ds : List α} (hrt : ∀ d ∈ ds, parse (text d) = .ok d)
    (hnd : ds.Nodup) {l : List Bytes} (hl : Lists (fun b => ∃ d ∈ ds, b = text d) l) {as : List α} (h : l.map parse = as.map .ok) :
    as.Perm ds := by
  have hmem : ∀ a, a ∈ as ↔ a ∈ ds := by
    intro a
    constructor
    · intro ha
      have := List.mem_map_of_mem (f := (Except.ok : α → Py α)) ha
      rw [← h] at this
      obtain ⟨b, hb, e⟩ := List.mem_map.mp this
      obtain ⟨d, hd, rfl⟩ := (hl.all b).mp hb
      rw [hrt d hd] at e
      cases e; exact hd
    · intro ha
      have := List.mem_map_of_mem (f := parse) ((hl.all (text a)).mpr ⟨a, ha, rfl⟩)
      rw [h, hrt a ha] at this
      obtain ⟨d, hd, e⟩ := List.mem_map.mp this
      cases e; exact hd
  have hn : as.Nodup := by
    have h1 : (l.map parse).Nodup := by
      refine List.pairwise_map.mpr (hl.once.imp_of_mem ?_)
      intro a b ha hb hab e
      obtain ⟨d, hd, rfl⟩ := (hl.all a).mp ha
      obtain ⟨d', hd', rfl⟩ := (hl.all b).mp hb
      rw [hrt d hd, hrt d' hd'] at e
      cases e
      exact hab rfl
    rw [h] at h1
    exact (List.pairwise_map.mp h1).imp fun hab e => hab (congrArg _ e)
  exact (List.perm_ext_iff_of_nodup hn hnd).mpr hmem

/-- The subschema entry: its attribute types and object classes are what `fetch` gives. -/
theorem published (env : Env) (hU : Sane env.U) (luck : Luck) (st : State) (hb : C67.Built env st.heap) (w : Client.World)
    (app : Client.App) (fuel c : Nat) (o : ClientSearch.Options) (hw : CanSearch env.U app c o w) (d : Dn.Dn) (hd : Textual d) (hne : d ≠ [])
    (hfit : Fit (Utf8.encode d.text)) (j : Nat) (hj : Tree.lookup env.U st.heap 0 d = .ok j) (n : Tree.Node) (hn : st.heap[j]? = some n)
    (hs : C67.Sendable n.entry [ascii "attributeTypes", ascii "objectClasses"]) (ht : Textual n.entry.dn)
    (hoc : ∃ vs, HasAttr n.entry (.bytes (ascii "objectClass")) vs)
    (ats : List Schema.AttributeType) (ocs : List Schema.ObjectClass) (hats : ∀ t ∈ ats, Spec.Schema.ValidAttribute t)
    (hocs : ∀ t ∈ ocs, Spec.Schema.ValidClass t) (hne' : ats ≠ []) (hnd : ats.Nodup) (hnd' : ocs.Nodup)
    (ha : HasAttr n.entry (.bytes (ascii "attributeTypes")) (ats.map fun t => .bytes t.text))
    (ho : HasAttr n.entry (.bytes (ascii "objectClasses")) (ocs.map fun t => .bytes t.text)) :
    Searched env luck app fuel c o w (secondRequest d) st fun r =>
      ∃ ats' ocs', second env.U r = some (.ok (ats', ocs')) ∧ ats'.Perm ats ∧ ocs'.Perm ocs := by
  have hdist : [ascii "attributeTypes", ascii "objectClasses"].Pairwise fun j k => fold j ≠ fold k := by decide +kernel
  refine Searched.mono (one_entry env hU luck st hb w app fuel c o hw d hd hne hfit [ascii "attributeTypes", ascii "objectClasses"]
    (by unfold PyStr.Ascii; decide +kernel) hdist (by decide +kernel) j hj n hn hs ht hoc) ?_
  rintro r ⟨h1, e, h2, h3⟩
  obtain ⟨l, l', g1, g2, g3⟩ := descriptions_one hU h3.named h3.sets h3.ready (P := fun b => ∃ t ∈ ats, b = t.text) (Q := fun b => ∃ t ∈ ocs, b = t.text)
    (fun v => by
      rw [copy_has hs.named h3 List.mem_cons_self ha]
      constructor
      · rintro ⟨u, hu, rfl⟩
        obtain ⟨t, ht, rfl⟩ := List.mem_map.mp hu
        exact ⟨_, ⟨t, ht, rfl⟩, rfl⟩
      · rintro ⟨_, ⟨t, ht, rfl⟩, rfl⟩
        exact ⟨_, List.mem_map_of_mem ht, rfl⟩)
    (fun v => by
      rw [copy_has hs.named h3 (List.mem_cons_of_mem _ List.mem_cons_self) ho]
      constructor
      · rintro ⟨u, hu, rfl⟩
        obtain ⟨t, ht, rfl⟩ := List.mem_map.mp hu
        exact ⟨_, ⟨t, ht, rfl⟩, rfl⟩
      · rintro ⟨_, ⟨t, ht, rfl⟩, rfl⟩
        exact ⟨_, List.mem_map_of_mem ht, rfl⟩)
  obtain ⟨as, has⟩ := all_parse (parse := Schema.AttributeType.parse) fun b hb => by
    obtain ⟨t, ht, rfl⟩ := (g1.all b).mp hb
    exact ⟨t, C57.attribute_roundtrip (hats t ht)⟩
  obtain ⟨os, hos⟩ := all_parse (parse := Schema.ObjectClass.parse) fun b hb => by
    obtain ⟨t, ht, rfl⟩ := (g2.all b).mp hb
    exact ⟨t, C57.class_roundtrip (hocs t ht)⟩
  refine ⟨as, os, ?_, parsed_perm (fun t ht => C57.attribute_roundtrip (hats t ht)) hnd g1 has,
    parsed_perm (fun t ht => C57.class_roundtrip (hocs t ht)) hnd' g2 hos⟩
  have : descriptions env.U [e] = .ok (as, os) := by
    refine (g3 as os).mpr ⟨has, hos, ?_⟩
    obtain ⟨t, ts, rfl⟩ := List.exists_cons_of_ne_nil hne'
    exact List.ne_nil_of_mem ((g1.all t.text).mpr ⟨t, List.mem_cons_self, rfl⟩)
  simp only [second, h1, h2, this]

/-! ### The root DSE of this library's server -/

theorem no_value (hU : Sane U) {e : St} (hn : allOctets.Named e.attrs) (hr : e.deleted = false)
    (h : ∀ v, ¬ Has e.attrs (fold (ascii "subschemaSubentry")) v) : subschema U [e] = .error (.raised (.py .assertionError)) := by
  rcases target_cases hU hn hr key_sub with ⟨⟨a, vs⟩, _, ht, hv⟩ | ⟨ht, _⟩
  · match vs with
    | [] => simp only [subschema, ht]
    | v :: vs => exact absurd ((hv v).mpr List.mem_cons_self) (h v)
  · simp only [subschema, ht]

theorem each_one {α β : Type} {R : α → β → Prop} {x : α} {l : List β} (h : Each R [x] l) : ∃ y, l = [y] ∧ R x y := by
  cases h with
  | cons hx hr => cases hr; exact ⟨_, rfl, hx⟩

/-- **The property fails** at the root of this library's server: its root DSE does not tell where the schema is. -/
theorem of_root (env : Env) (hU : Sane env.U) (luck : Luck) (st : State) (n : Tree.Node) (hn : st.heap[0]? = some n)
    (hfit : Fit (Utf8.encode n.entry.dn.text)) (w : Client.World) (app : Client.App) (fuel c : Nat) (o : ClientSearch.Options)
    (hw : CanSearch env.U app c o w) :
    Searched env luck app fuel c o w (firstRequest []) st fun r => first env.U r = some (.error (.raised (.py .assertionError))) := by
  have hreq : firstRequest [] = (Op.search [] 0 0 1 0 false (.present (ascii "objectClass")) [ascii "subschemaSubentry"]).build := by
    have h1 : Utf8.encode (Dn.Dn.text []) = [] := by decide +kernel
    rw [firstRequest, request_eq, h1]
  obtain ⟨s, h1, h2, h3, he⟩ := C67.root_dse env luck st n hn hfit w.nextId hw.id 0x43 (.int 0) (.int 1) (.int 0) (.int 0)
    [.bytes (ascii "subschemaSubentry")] [] (fun ⟨_, _, _, h, _⟩ => by cases h)
  rw [C41.noncritical_ignored env luck st _ _ [] (fun ⟨_, _, _, h, _⟩ => by cases h)] at h1
  have hread : readOp (received (Op.entry [] (C87.dse n))) = some (.entry [] (C87.dse n)) :=
    C75.readOp_sent (i := w.nextId) (by trivial) (he (.int w.nextId, (Op.entry [] (C87.dse n)).build) (by rw [h3]; exact List.mem_cons_self))
  have hsound : Sound env.U (received (Op.entry [] (C87.dse n))) := by
    refine .inr ⟨[], C87.dse n, [], hread, ⟨[], by decide +kernel, by rfl⟩, ?_, ?_⟩
    · intro p hp
      have hnames : ∀ a ∈ [ascii "supportedLDAPVersion", ascii "namingContexts", ascii "supportedExtension"], (PyStr.bytes a).Ascii := by
        unfold PyStr.Ascii; decide +kernel
      exact hnames p.1 (by simpa [C87.dse] using List.mem_map_of_mem (f := Prod.fst) hp)
    · have : [ascii "supportedLDAPVersion", ascii "namingContexts", ascii "supportedExtension"].Pairwise fun p q => fold p ≠ fold q := by
        decide +kernel
      exact (List.pairwise_map (f := Prod.fst) (R := fun p q => fold p ≠ fold q)).mp this
  have hsize : (Msg.mk w.nextId (.search [] 0 0 1 0 false (.present (ascii "objectClass")) [ascii "subschemaSubentry"]) none).size < lengthLimit := by
    have h0 : (Op.search [] 0 0 1 0 false (.present (ascii "objectClass")) [ascii "subschemaSubentry"]).size < 2 ^ 50 := by decide +kernel
    have := Server.two64_lt_limit
    have := hw.id
    simp only [Msg.size, controlsSize, elementSize, intSize] at h0 ⊢
    omega
  obtain ⟨out, hlog, hex⟩ := C75.exchange env hU luck st w app fuel c o hw.quiet hw.searches hw.new hw.connected hw.id hw.free
    (.search [] 0 0 1 0 false (.present (ascii "objectClass")) [ascii "subschemaSubentry"]) trivial rfl hsize s [.entry [] (C87.dse n)] h1 h2 h3 he
    (fun op hop => by rw [List.mem_singleton.mp hop]; trivial) (fun op hop => by rw [List.mem_singleton.mp hop]; exact C75.isResponse_read hread)
    (fun op hop => by rw [List.mem_singleton.mp hop]; exact hsound)
  unfold Searched
  rw [hreq]
  refine ⟨_, out, rfl, hlog, fun segs hsegs => ?_⟩
  obtain ⟨sent, back, g1, g2, g3, g4⟩ := hex segs hsegs
  refine ⟨sent, back, g1, g2, g3, fun segs' hsegs' => ?_⟩
  obtain ⟨k1, k2, k3, k4, k5⟩ := g4 segs' hsegs'
  refine ⟨k1, k2, ?_⟩
  have hE := brings_entries k5
  have hone : entriesOf ([Op.entry [] (C87.dse n)].map received) = [([], C87.dse n)] := by simp [entriesOf, hread]
  rw [hone] at hE
  obtain ⟨e, hes, hf⟩ := each_one hE
  simp only [first, k4, hes]
  rw [no_value hU hf.named hf.ready]
  intro v hv
  obtain ⟨b, ⟨p, hp, hpn, _⟩, _⟩ := (has_value hf _ v).mp hv
  have hdiff : fold (ascii "supportedLDAPVersion") ≠ fold (ascii "subschemaSubentry") ∧
      fold (ascii "namingContexts") ≠ fold (ascii "subschemaSubentry") ∧
      fold (ascii "supportedExtension") ≠ fold (ascii "subschemaSubentry") := by decide +kernel
  simp only [C87.dse, List.mem_cons, List.not_mem_nil, or_false] at hp
  rcases hp with rfl | rfl | rfl
  · exact hdiff.1 hpn
  · exact hdiff.2.1 hpn
  · exact hdiff.2.2 hpn

/-! ### Examples -/

def root : Entry := ⟨[[⟨['d','c'], ['a']⟩]], [(.bytes (ascii "objectClass"), [.bytes (ascii "domain")]), (.bytes (ascii "dc"), [.bytes (ascii "a")]),
  (.bytes (ascii "subschemasubentry"), [.bytes (ascii "cn=s,dc=a")])]⟩

def sub : Entry := ⟨[[⟨['c','n'], ['s']⟩], [⟨['d','c'], ['a']⟩]],
  [(.bytes (ascii "cn"), [.bytes (ascii "s")]), (.bytes (ascii "objectClass"), [.bytes (ascii "subschema")]),
   (.bytes (ascii "attributeTypes"), [.bytes C57.cn.text]), (.bytes (ascii "objectClasses"), [.bytes C57.person.text])]⟩

/-- The root, and its subschema entry added below it. -/
def heap : Tree.Heap := [⟨root, none, [(['c','n','=','s'], 1)]⟩, ⟨sub, some 0, []⟩]

def addition : Obj := (Op.add (ascii "cn=s,dc=a") [(ascii "cn", [ascii "s"]), (ascii "objectClass", [ascii "subschema"]),
  (ascii "attributeTypes", [C57.cn.text]), (ascii "objectClasses", [C57.person.text])]).build

theorem built : C67.Built C40.env heap := by
  have h : ((Server.serve C40.env C40.luck ⟨Tree.single root, none⟩ (.message (.int 1) addition none)).map fun s => decide (s.state.heap = heap)) =
      some true := by decide +kernel
  cases hs : Server.serve C40.env C40.luck ⟨Tree.single root, none⟩ (.message (.int 1) addition none) with
  | none => rw [hs] at h; cases h
  | some s =>
    rw [hs] at h
    have : s.state.heap = heap := by simpa using h
    rw [← this]
    exact .step (st := ⟨Tree.single root, none⟩) (.start root) (request := addition) (fun h => by cases h) hs

theorem sendable {wanted : List Bytes} (hw : wanted.length < 2 ^ 32) {e : Entry} (he : e = root ∨ e = sub) : C67.Sendable e wanted := by
  have hall : e.attrs.all (fun p => decide (p.1.Ascii) && p.2.all (fun v => !v.isText) &&
      decide (p.1.toBytes.length < 2 ^ 32) && decide (p.2.length < 2 ^ 32) && p.2.all (fun v => decide (v.toBytes.length < 2 ^ 32))) = true := by
    rcases he with rfl | rfl <;> decide +kernel
  rw [List.all_eq_true] at hall
  refine ⟨⟨fun k vs hm => ?_, ?_⟩, fun k vs hm => ?_, ⟨?_, ?_, fun k vs hm => ?_, hw⟩⟩
  · have := hall _ hm
    simp only [Bool.and_eq_true, decide_eq_true_iff] at this
    exact this.1.1.1.1
  · rcases he with h | h <;> rw [h] <;> unfold SameName <;> decide +kernel
  · have := hall _ hm
    simp only [Bool.and_eq_true, List.all_eq_true, Bool.not_eq_true'] at this
    exact .inr this.1.1.1.2
  · rcases he with h | h <;> rw [h] <;> unfold Fit <;> decide +kernel
  · rcases he with h | h <;> rw [h] <;> decide +kernel
  · have := hall _ hm
    simp only [Bool.and_eq_true, decide_eq_true_iff, List.all_eq_true] at this
    exact ⟨this.1.1.2, this.1.2, this.2⟩

theorem can : CanSearch asciiTables (C75.program asciiTables C75.options 0) 0 C75.options C75.world :=
  ⟨fun _ => rfl, C75.program_searches _ _ _, rfl, by decide +kernel, by decide +kernel, by decide +kernel⟩

theorem root_textual : Textual root.dn := ⟨by decide, by decide⟩
theorem sub_textual : Textual sub.dn := ⟨by decide, by decide⟩

/-- The fetch at the root of the tree leads to the subschema entry ... -/
example : Searched C40.env C40.luck (C75.program asciiTables C75.options 0) 0 0 C75.options C75.world (firstRequest root.dn) ⟨heap, none⟩
    fun r => first asciiTables r = some (.ok sub.dn) :=
  names_subentry C40.env asciiTables_sane C40.luck ⟨heap, none⟩ built C75.world _ 0 0 C75.options can root.dn root_textual (by decide)
    (by unfold Fit; decide +kernel) 0 (by decide +kernel) _ rfl (sendable (by decide) (.inl rfl)) root_textual
    ⟨_, _, List.mem_cons_self, rfl⟩ sub.dn sub_textual
    ⟨.bytes (ascii "subschemasubentry"), by
      have : Utf8.encode sub.dn.text = ascii "cn=s,dc=a" := by decide +kernel
      rw [this]
      exact List.mem_cons_of_mem _ (List.mem_cons_of_mem _ List.mem_cons_self), by unfold SameName; decide +kernel⟩

/-- ... and there to the two descriptions. -/
example : Searched C40.env C40.luck (C75.program asciiTables C75.options 0) 0 0 C75.options C75.world (secondRequest sub.dn) ⟨heap, none⟩
    fun r => ∃ ats ocs, second asciiTables r = some (.ok (ats, ocs)) ∧ ats.Perm [C57.cn] ∧ ocs.Perm [C57.person] :=
  published C40.env asciiTables_sane C40.luck ⟨heap, none⟩ built C75.world _ 0 0 C75.options can sub.dn sub_textual (by decide)
    (by unfold Fit; decide +kernel) 1 (by decide +kernel) _ rfl (sendable (by decide) (.inr rfl)) sub_textual
    ⟨_, _, List.mem_cons_of_mem _ List.mem_cons_self, rfl⟩ [C57.cn] [C57.person]
    (fun t ht => by rw [List.mem_singleton.mp ht]; exact C57.cn_valid) (fun t ht => by rw [List.mem_singleton.mp ht]; exact C57.person_valid)
    (by simp) (List.pairwise_singleton _ _) (List.pairwise_singleton _ _)
    ⟨_, List.mem_cons_of_mem _ (List.mem_cons_of_mem _ List.mem_cons_self), rfl⟩
    ⟨_, List.mem_cons_of_mem _ (List.mem_cons_of_mem _ (List.mem_cons_of_mem _ List.mem_cons_self)), rfl⟩

example := of_root C40.env asciiTables_sane C40.luck ⟨heap, none⟩ _ rfl (by unfold Fit; decide +kernel) C75.world _ 0 0 C75.options can

/-- The answer of another server, for the theorems about any server. -/
def answer : List Obj := [.searchEntry 0x44 (.bytes (ascii "cn=s")) [(.bytes (ascii "attributetypes"), [.bytes (ascii "( 1.2 )")]),
  (.bytes (ascii "SubSchemaSubEntry"), [.bytes (ascii "cn=s")])]]

theorem answer_sound : ∀ m ∈ answer, Sound asciiTables m := by
  intro m hm
  rw [List.mem_singleton.mp hm]
  refine .inr ⟨ascii "cn=s", [(ascii "attributetypes", [ascii "( 1.2 )"]), (ascii "SubSchemaSubEntry", [ascii "cn=s"])],
    [[⟨"cn".toList, "s".toList⟩]], rfl, ⟨"cn=s".toList, by decide +kernel, by decide +kernel⟩, ?_, ?_⟩
  · unfold PyStr.Ascii
    decide +kernel
  · decide +kernel

example : first asciiTables (ClientSearch.run asciiTables C75.options ((answer ++ [C87.success]).map .response)) = some (.ok [[⟨"cn".toList, "s".toList⟩]]) ∧
    ∃ x, second asciiTables (ClientSearch.run asciiTables C75.options ((answer ++ [C87.success]).map .response)) = some (.ok x) := by
  have hne : fold (ascii "attributetypes") ≠ fold (ascii "subschemaSubentry") ∧ fold (ascii "SubSchemaSubEntry") = fold (ascii "subschemaSubentry") ∧
      fold (ascii "attributetypes") = fold (ascii "attributeTypes") ∧ fold (ascii "SubSchemaSubEntry") ≠ fold (ascii "attributeTypes") ∧
      fold (ascii "attributetypes") ≠ fold (ascii "objectClasses") ∧ fold (ascii "SubSchemaSubEntry") ≠ fold (ascii "objectClasses") := by
    decide +kernel
  have hen : entriesOf answer = [(ascii "cn=s", [(ascii "attributetypes", [ascii "( 1.2 )"]), (ascii "SubSchemaSubEntry", [ascii "cn=s"])])] := rfl
  refine ⟨(first_iff asciiTables_sane (fun _ => rfl) answer answer_sound C87.success [] rfl _).mpr ⟨_, _, ascii "cn=s", hen, fun b => ?_,
    "cn=s".toList, by decide +kernel, by decide +kernel⟩,
    (second_iff asciiTables_sane (fun _ => rfl) answer answer_sound C87.success [] rfl).mpr ⟨_, _, hen,
      ⟨ascii "( 1.2 )", _, List.mem_cons_self, hne.2.2.1, List.mem_cons_self⟩, fun b hb => ?_, fun b hb => ?_⟩⟩
  · simp [Value, hne.1, hne.2.1]
  · have : b = ascii "( 1.2 )" := by simpa [Value, hne.2.2.1, hne.2.2.2.1] using hb
    rw [this]
    cases h : Schema.AttributeType.parse (ascii "( 1.2 )") with
    | ok t => exact ⟨t, rfl⟩
    | error x =>
      have : (Schema.AttributeType.parse (ascii "( 1.2 )")).isOk = true := by decide +kernel
      rw [h] at this
      cases this
  · exact absurd hb (by simp [Value, hne.2.2.2.2.1, hne.2.2.2.2.2])

end Verif.C93
