import Verif.Model.ClientSearch
import Verif.Spec.ClientSearch
import Verif.Lemmas.SyntaxItems
/-
C52: when a search hits the server's size limit, the search fails with sizeLimitExceeded unless the caller asked for it to be
non-fatal, in which case the partial results are returned.

The first half is false.  `limit_swallowed`: every search that hits the size limit ends successfully, whatever the caller asked
for.  `limit_tolerated`, `succeeds`, `fails`: the other cases, with the entries.  `waits`: before the last response the search
has not ended.  `ends_once`: it ends once.  `lost_fails`: if the connection goes, it fails.  `unexpected`, `nameless`, `valueless`,
`callback_raises`, `codeless`: nothing that is not understood is passed over.
-/
namespace Verif.C52
open Verif.Ldap Verif.Spec Verif.Spec.Modify Verif.ClientSearch
open Verif.Syntax (St init noDn)

variable {U : Unicode} {o : Options}

/-- The options of a search without a callback, or with one that does not raise. -/
def Quiet (o : Options) : Prop := ∀ e, o.raises e = false

theorem asBytes_eq {v : PyVal} {b : Bytes} (h : asBytes v = some b) : v = .bytes b := by
  cases v <;> simp [asBytes] at h; rw [h]

theorem allSome_cons {α β : Type} {f : α → Option β} {x : α} {xs : List α} {l : List β} (h : allSome f (x :: xs) = some l) :
    ∃ a b, f x = some a ∧ allSome f xs = some b ∧ l = a :: b := by
  simp only [allSome, bind, Option.bind, pure] at h
  cases hx : f x with
  | none => rw [hx] at h; cases h
  | some a =>
    rw [hx] at h
    cases hxs : allSome f xs with
    | none => simp only [hxs] at h; cases h
    | some b => simp only [hxs] at h; cases h; exact ⟨a, b, rfl, rfl, rfl⟩

theorem readEntryAttr_eq {kv : PyVal × List PyVal} {p : Bytes × List Bytes} (h : readEntryAttr kv = some p) :
    kv.1 = .bytes p.1 ∧ allSome asBytes kv.2 = some p.2 := by
  simp only [readEntryAttr, bind, Option.bind, pure] at h
  cases h1 : asBytes kv.1 with
  | none => rw [h1] at h; cases h
  | some a =>
    rw [h1] at h
    cases h2 : allSome asBytes kv.2 with
    | none => simp only [h2] at h; cases h
    | some b => simp only [h2] at h; cases h; exact ⟨asBytes_eq h1, rfl⟩

theorem octets_eq {vs : List PyVal} {bs : List Bytes} (h : allSome asBytes vs = some bs) : octets vs = .ok (bs.map .bytes) := by
  induction vs generalizing bs with
  | nil => simp only [allSome] at h; cases h; rfl
  | cons v vs ih =>
    obtain ⟨a, b, h1, h2, rfl⟩ := allSome_cons h
    rw [asBytes_eq h1]
    simp [octets, toBytes, ih h2]

/-- Attributes as a new entry takes them. -/
def raw (as : Spec.Attrs) : List (PyStr × List PyStr) := as.map fun p => (.bytes p.1, p.2.map .bytes)

theorem dictSet_new {k : Bytes} {vs : List PyStr} {d : List (PyStr × List PyStr)} (h : ∀ p ∈ d, p.1 ≠ .bytes k) :
    dictSet k vs d = d ++ [(.bytes k, vs)] := by
  induction d with
  | nil => rfl
  | cons p d ih =>
    rw [dictSet, if_neg (h p List.mem_cons_self), ih fun q hq => h q (List.mem_cons_of_mem _ hq)]
    rfl

theorem gather_eq {l : List (PyVal × List PyVal)} {as : Spec.Attrs} (h : allSome readEntryAttr l = some as) (d : List (PyStr × List PyStr))
    (hd : (d ++ raw as).Pairwise fun p q => p.1 ≠ q.1) : gather l d = .ok (d ++ raw as) := by
  induction l generalizing as d with
  | nil => simp only [allSome] at h; cases h; simp [gather, raw]
  | cons p l ih =>
    obtain ⟨a, b, h1, h2, rfl⟩ := allSome_cons h
    obtain ⟨h3, h4⟩ := readEntryAttr_eq h1
    have e : d ++ raw (a :: b) = (d ++ [(.bytes a.1, a.2.map .bytes)]) ++ raw b := by simp [raw]
    rw [e] at hd ⊢
    simp only [gather, octets_eq h4, h3, toBytes]
    rw [dictSet_new, ih h2 _ hd]
    intro q hq
    rw [List.append_assoc, List.pairwise_append] at hd
    exact hd.2.2 q hq (.bytes a.1, a.2.map .bytes) (by simp)

theorem raw_named {as : Spec.Attrs} (h : as.Proper) : allOctets.Named (raw as) := by
  refine ⟨fun p hp => ?_, ?_⟩
  · obtain ⟨q, hq, rfl⟩ := List.mem_map.mp hp
    exact ⟨h.ascii q hq, rfl⟩
  · exact List.pairwise_map.mpr h.once

theorem raw_apart {as : Spec.Attrs} (h : as.Proper) : (raw as).Pairwise fun p q => p.1 ≠ q.1 := by
  refine (List.pairwise_map.mpr h.once : (raw as).Pairwise fun p q => fold p.1.toBytes ≠ fold q.1.toBytes).imp fun hne e => hne (by rw [e])

/-- What is made of a search result entry. -/
theorem readEntry_eq (hU : Sane U) {name : PyVal} {l : List (PyVal × List PyVal)} {dn : Bytes} {as : Spec.Attrs} {d : Dn.Dn} {c : Bool}
    (hn : asBytes name = some dn) (hl : allSome readEntryAttr l = some as) (hd : Means U dn d) (hp : as.Proper) :
    ∃ e, readEntry U c name l = .ok e ∧ FoundAs U c dn as e := by
  obtain ⟨s, h1, h2⟩ := hd
  have hb : Tree.buildAttrs U (raw as) = (raw as).map fun p => (p.1, mkSet p.2) := Syntax.buildAttrs_named hU (raw_named hp)
  refine ⟨init U d (raw as) c, ?_, ?_⟩
  · rw [asBytes_eq hn]
    simp [readEntry, gather_eq hl [] (by simpa using raw_apart hp), Server.readDn, bind, Except.bind, h1, h2]
  · refine ⟨⟨s, h1, h2⟩, fun n v => ?_, fun p hp => ?_, fun p hp => ?_, ?_, rfl, rfl, rfl, rfl⟩
    · show Has (Tree.buildAttrs U (raw as)) n v ↔ _
      rw [hb]
      constructor
      · rintro ⟨p, hp, e, h⟩
        obtain ⟨q, hq, rfl⟩ := List.mem_map.mp hp
        obtain ⟨r, hr, rfl⟩ := List.mem_map.mp hq
        obtain ⟨b, hb, rfl⟩ := List.mem_map.mp (Delta.mem_mkSet.mp h)
        exact ⟨r, hr, e, b, hb, rfl⟩
      · rintro ⟨r, hr, e, b, hb, rfl⟩
        exact ⟨_, List.mem_map.mpr ⟨_, List.mem_map.mpr ⟨r, hr, rfl⟩, rfl⟩, e, Delta.mem_mkSet.mpr (List.mem_map.mpr ⟨b, hb, rfl⟩)⟩
    · show ∃ vs, (PyStr.bytes p.1, vs) ∈ Tree.buildAttrs U (raw as)
      rw [hb]
      exact ⟨_, List.mem_map.mpr ⟨_, List.mem_map.mpr ⟨p, hp, rfl⟩, rfl⟩⟩
    · have hp : p ∈ Tree.buildAttrs U (raw as) := hp
      rw [hb] at hp
      obtain ⟨q, hq, rfl⟩ := List.mem_map.mp hp
      exact Delta.mkSet_nodup _
    · show allOctets.Named (Tree.buildAttrs U (raw as))
      rw [hb]
      refine ⟨fun p hp' => ?_, List.pairwise_map.mpr (raw_named hp).apart⟩
      obtain ⟨q, hq, rfl⟩ := List.mem_map.mp hp'
      exact (raw_named hp).names q hq

theorem bind_some {α β : Type} {x : Option α} {f : α → Option β} {b : β} (h : (x >>= f) = some b) : ∃ a, x = some a ∧ f a = some b := by
  cases x with
  | none => cases h
  | some a => exact ⟨a, rfl, h⟩

theorem readOp_entry {m : Obj} {dn : Bytes} {as : Spec.Attrs} (h : readOp m = some (.entry dn as)) :
    ∃ tag name l, m = .searchEntry tag name l ∧ asBytes name = some dn ∧ allSome readEntryAttr l = some as := by
  unfold readOp at h
  split at h
  all_goals try (repeat (replace h := bind_some h; obtain ⟨_, _, h⟩ := h))
  all_goals cases h
  exact ⟨_, _, _, rfl, by assumption, by assumption⟩

theorem readOp_reference {m : Obj} {us : List Bytes} (h : readOp m = some (.reference us)) : ∃ tag l, m = .searchReference tag l := by
  unfold readOp at h
  split at h
  all_goals try (repeat (replace h := bind_some h; obtain ⟨_, _, h⟩ := h))
  all_goals cases h
  exact ⟨_, _, rfl⟩

theorem readOp_done {m : Obj} {code : Int} {matched message : Bytes} (h : readOp m = some (.result .searchDone code matched message)) :
    ∃ tag creds, m = .result .searchResultDone tag (.int code) (.bytes matched) (.bytes message) creds := by
  unfold readOp at h
  split at h
  all_goals try (repeat (replace h := bind_some h; obtain ⟨_, _, h⟩ := h))
  all_goals cases h
  rename_i k tag c m e creds _ hk hc hm he
  refine ⟨tag, creds, ?_⟩
  rw [asBytes_eq hm, asBytes_eq he]
  have : c = .int code := by cases c <;> simp [asInt] at hc; rw [hc]
  rw [this]
  have : k = .searchResultDone := by
    unfold ResultKind.ofCls at hk
    split at hk <;> first | rfl | (cases hk)
  rw [this]

/-! ### What becomes of the responses -/

theorem response_reference {m : Obj} {us : List Bytes} (h : readOp m = some (.reference us)) (s : Running) : response U o s m = s := by
  obtain ⟨tag, l, rfl⟩ := readOp_reference h
  rfl

/-- The responses before the last one. -/
theorem run_brings (hU : Sane U) (hq : Quiet o) (ms : List Obj) (hm : ∀ m ∈ ms, Sound U m) (pre : List St) :
    ∃ es, Brings U o.complete ms es ∧ (ms.map Event.response).foldl (step U o) ⟨pre, none⟩ = ⟨pre ++ es, none⟩ := by
  induction ms generalizing pre with
  | nil => exact ⟨[], .nil, by simp⟩
  | cons m ms ih =>
    have hms : ∀ m ∈ ms, Sound U m := fun x hx => hm x (List.mem_cons_of_mem _ hx)
    rcases hm m List.mem_cons_self with ⟨us, h⟩ | ⟨dn, as, d, h, hd, hp⟩
    · obtain ⟨es, h1, h2⟩ := ih hms pre
      refine ⟨es, .reference h h1, ?_⟩
      rw [List.map_cons, List.foldl_cons, ← h2]
      show List.foldl _ (response U o ⟨pre, none⟩ m) _ = _
      rw [response_reference h]
    · obtain ⟨tag, name, l, rfl, h3, h4⟩ := readOp_entry h
      obtain ⟨e, h5, h6⟩ := readEntry_eq (c := o.complete) hU h3 h4 hd hp
      obtain ⟨es, h1, h2⟩ := ih hms (pre ++ [e])
      refine ⟨e :: es, .entry h h6 h1, ?_⟩
      rw [List.map_cons, List.foldl_cons, show pre ++ e :: es = pre ++ [e] ++ es by simp, ← h2]
      have : step U o ⟨pre, none⟩ (.response (.searchEntry tag name l)) = ⟨pre ++ [e], none⟩ := by
        show response U o ⟨pre, none⟩ (.searchEntry tag name l) = _
        simp [response, h5, hq e]
      rw [this]

/-- **C52** Before the last response the search goes on, with the entries so far. -/
theorem waits (hU : Sane U) (hq : Quiet o) (ms : List Obj) (hm : ∀ m ∈ ms, Sound U m) :
    (run U o (ms.map .response)).outcome = none ∧ Brings U o.complete ms (run U o (ms.map .response)).entries := by
  obtain ⟨es, h1, h2⟩ := run_brings hU hq ms hm []
  rw [show run U o (ms.map .response) = ⟨es, none⟩ from h2]
  exact ⟨rfl, h1⟩

theorem run_done (hU : Sane U) (hq : Quiet o) (ms : List Obj) (hm : ∀ m ∈ ms, Sound U m) (last : Obj) :
    ∃ es, Brings U o.complete ms es ∧ run U o ((ms ++ [last]).map .response) = response U o ⟨es, none⟩ last := by
  obtain ⟨es, h1, h2⟩ := run_brings hU hq ms hm []
  refine ⟨es, h1, ?_⟩
  rw [List.map_append]
  unfold run
  rw [List.foldl_append]
  show List.foldl _ ((ms.map .response).foldl (step U o) ⟨[], none⟩) _ = _
  rw [h2]
  rfl

theorem kind_zero : kind (.int 0) = .success := by decide +kernel
theorem kind_four : kind (.int 4) = .sizeLimit := by decide +kernel

theorem find_key {l : List (Int × String)} {c : Int} {p : Int × String} (h : l.find? (fun p => p.1 == c) = some p) : p.1 = c := by
  have := List.find?_some h
  simpa using this

theorem kind_other {c : Int} (h0 : c ≠ 0) (h4 : c ≠ 4) : kind (.int c) = .other := by
  unfold kind Errors.get
  simp only
  cases hf : Errors.collection.find? (fun p => p.1 == c) with
  | none => rfl
  | some p =>
    have hp := find_key hf
    obtain ⟨k, n⟩ := p
    simp only at hp
    subst hp
    split
    · rename_i h
      split at h
      · rename_i h'; cases h'; exact absurd rfl h0
      · cases h
      · cases h
    · rename_i h
      split at h
      · cases h
      · rename_i h'; cases h'; cases h; exact absurd rfl h4
      · cases h
    · rfl

/-- **C52** A search that the server completes gives the entries. -/
theorem succeeds (hU : Sane U) (hq : Quiet o) (ms : List Obj) (hm : ∀ m ∈ ms, Sound U m) (last : Obj) (message : Bytes)
    (hl : readOp last = some (.result .searchDone 0 [] message)) :
    (run U o ((ms ++ [last]).map .response)).outcome = some .finished ∧
    Brings U o.complete ms (run U o ((ms ++ [last]).map .response)).entries := by
  obtain ⟨es, h1, h2⟩ := run_done hU hq ms hm last
  obtain ⟨tag, creds, rfl⟩ := readOp_done hl
  rw [h2]
  simp only [response, kind_zero, noDn]
  exact ⟨rfl, h1⟩

/-- **C52** If the caller asked for it, a search that hits the size limit gives the entries that came. -/
theorem limit_tolerated (hU : Sane U) (hq : Quiet o) (hn : o.nonFatal = true) (ms : List Obj) (hm : ∀ m ∈ ms, Sound U m) (last : Obj)
    (message : Bytes) (hl : readOp last = some (.result .searchDone 4 [] message)) :
    (run U o ((ms ++ [last]).map .response)).outcome = some .finished ∧
    Brings U o.complete ms (run U o ((ms ++ [last]).map .response)).entries := by
  obtain ⟨es, h1, h2⟩ := run_done hU hq ms hm last
  obtain ⟨tag, creds, rfl⟩ := readOp_done hl
  rw [h2]
  simp only [response, kind_four, hn, noDn]
  exact ⟨rfl, h1⟩

/-- **C52 fails**: if the caller did not ask for it, the search ends successfully all the same, with the entries that came. -/
theorem limit_swallowed (hU : Sane U) (hq : Quiet o) (hn : o.nonFatal = false) (ms : List Obj) (hm : ∀ m ∈ ms, Sound U m) (last : Obj)
    (message : Bytes) (hl : readOp last = some (.result .searchDone 4 [] message)) :
    (run U o ((ms ++ [last]).map .response)).outcome = some .finished ∧
    Brings U o.complete ms (run U o ((ms ++ [last]).map .response)).entries := by
  obtain ⟨es, h1, h2⟩ := run_done hU hq ms hm last
  obtain ⟨tag, creds, rfl⟩ := readOp_done hl
  rw [h2]
  simp only [response, kind_four, hn, noDn]
  exact ⟨rfl, h1⟩

/-- **C52** Any other result code fails the search with its code. -/
theorem fails (hU : Sane U) (hq : Quiet o) (ms : List Obj) (hm : ∀ m ∈ ms, Sound U m) (last : Obj) (code : Int) (h0 : code ≠ 0) (h4 : code ≠ 4)
    (matched message : Bytes) (hl : readOp last = some (.result .searchDone code matched message)) :
    (run U o ((ms ++ [last]).map .response)).outcome = some (.failed (.int code) (.bytes message)) := by
  obtain ⟨es, h1, h2⟩ := run_done hU hq ms hm last
  obtain ⟨tag, creds, rfl⟩ := readOp_done hl
  rw [h2]
  simp only [response, kind_other h0 h4]

/-- **C52** A search ends once: whatever comes later changes nothing. -/
theorem ends_once (es later : List Event) (x : Outcome) (h : (run U o es).outcome = some x) : run U o (es ++ later) = run U o es := by
  unfold run at h ⊢
  rw [List.foldl_append]
  generalize es.foldl (step U o) start = s at h
  induction later with
  | nil => rfl
  | cons e later ih =>
    rw [List.foldl_cons]
    have : step U o s e = s := by unfold step; rw [h]
    rw [this, ih]

/-- **C52** If the connection is lost before the search has ended, the search fails. -/
theorem lost_fails (es : List Event) (h : (run U o es).outcome = none) : (run U o (es ++ [.lost])).outcome = some .lost := by
  unfold run at h ⊢
  rw [List.foldl_append]
  generalize es.foldl (step U o) start = s at h
  show (step U o s .lost).outcome = _
  unfold step
  rw [h]

/-- **C52** A response that does not belong to a search ends the connection, and with it the search. -/
theorem unexpected (hU : Sane U) (hq : Quiet o) (ms : List Obj) (hm : ∀ m ∈ ms, Sound U m) (m : Obj) (op : Op) (h : readOp m = some op)
    (he : ∀ dn as, op ≠ .entry dn as) (hr : ∀ us, op ≠ .reference us) (hd : ∀ c n e, op ≠ .result .searchDone c n e) :
    (run U o ((ms ++ [m]).map .response)).outcome = some .lost := by
  obtain ⟨es, h1, h2⟩ := run_done hU hq ms hm m
  rw [h2]
  unfold response
  split
  · exfalso
    simp only [readOp] at h
    repeat (replace h := bind_some h; obtain ⟨_, _, h⟩ := h)
    rename_i hk _ _ _ _ _ _
    cases h
    simp only [ResultKind.ofCls] at hk
    cases hk
    exact hd _ _ _ rfl
  · exfalso
    simp only [readOp] at h
    repeat (replace h := bind_some h; obtain ⟨_, _, h⟩ := h)
    cases h
    exact he _ _ rfl
  · exfalso
    simp only [readOp] at h
    repeat (replace h := bind_some h; obtain ⟨_, _, h⟩ := h)
    cases h
    exact hr _ rfl
  · rfl

/-- **C52** So does an entry without a DN. -/
theorem nameless (hU : Sane U) (hq : Quiet o) (ms : List Obj) (hm : ∀ m ∈ ms, Sound U m) (m : Obj) (dn : Bytes) (as : Spec.Attrs)
    (h : readOp m = some (.entry dn as)) (hd : ∀ d, ¬ Means U dn d) : (run U o ((ms ++ [m]).map .response)).outcome = some .lost := by
  obtain ⟨es, h1, h2⟩ := run_done hU hq ms hm m
  obtain ⟨tag, name, l, rfl, h3, h4⟩ := readOp_entry h
  rw [h2, asBytes_eq h3]
  have : ∃ e, readEntry U o.complete (.bytes dn) l = .error e := by
    unfold readEntry
    split
    · exact ⟨_, rfl⟩
    · simp only [Server.readDn, bind, Except.bind]
      cases h5 : Utf8.decode dn with
      | error e => exact ⟨_, rfl⟩
      | ok s =>
        simp only
        cases h6 : Dn.Dn.parse U s with
        | error e => exact ⟨_, rfl⟩
        | ok d => exact absurd ⟨s, h5, h6⟩ (hd d)
  obtain ⟨e, h7⟩ := this
  simp [response, h7]

theorem octets_none {vs : List PyVal} (h : PyVal.none ∈ vs) : ∃ e, octets vs = .error e := by
  induction vs with
  | nil => cases h
  | cons v vs ih =>
    unfold octets
    rcases List.mem_cons.mp h with rfl | h
    · exact ⟨_, rfl⟩
    · obtain ⟨e, he⟩ := ih h
      rw [he]
      cases toBytes v <;> exact ⟨_, rfl⟩

theorem gather_none {l : List (PyVal × List PyVal)} (h : ∃ p ∈ l, p.1 = .none ∨ PyVal.none ∈ p.2) (d : List (PyStr × List PyStr)) :
    ∃ e, gather l d = .error e := by
  induction l generalizing d with
  | nil => obtain ⟨_, h, _⟩ := h; cases h
  | cons p l ih =>
    unfold gather
    obtain ⟨q, hq, h⟩ := h
    rcases List.mem_cons.mp hq with rfl | hq
    · rcases h with h | h
      · rw [h]
        cases octets q.2 <;> exact ⟨_, rfl⟩
      · obtain ⟨e, he⟩ := octets_none h
        rw [he]
        exact ⟨_, rfl⟩
    · cases octets p.2 with
      | error e => exact ⟨_, rfl⟩
      | ok vs =>
        cases toBytes p.1 with
        | error e => exact ⟨_, rfl⟩
        | ok k => exact ih ⟨q, hq, h⟩ _

/-- **C52** So does an entry in which the name of an attribute, or a value, is missing. -/
theorem valueless (hU : Sane U) (hq : Quiet o) (ms : List Obj) (hm : ∀ m ∈ ms, Sound U m) (tag : UInt8) (name : PyVal)
    (l : List (PyVal × List PyVal)) (h : ∃ p ∈ l, p.1 = .none ∨ PyVal.none ∈ p.2) :
    (run U o ((ms ++ [Obj.searchEntry tag name l]).map .response)).outcome = some .lost := by
  obtain ⟨es, h1, h2⟩ := run_done hU hq ms hm (.searchEntry tag name l)
  obtain ⟨e, he⟩ := gather_none h []
  rw [h2]
  simp [response, readEntry, he]

/-- **C52** So does an exception in the callback; it got the entry. -/
theorem callback_raises (hU : Sane U) (m : Obj) (dn : Bytes) (as : Spec.Attrs) (d : Dn.Dn) (hr : ∀ e, FoundAs U o.complete dn as e → o.raises e = true)
    (h : readOp m = some (.entry dn as)) (hd : Means U dn d) (hp : as.Proper) (later : List Event) :
    (run U o (.response m :: later)).outcome = some .lost ∧ Brings U o.complete [m] (run U o (.response m :: later)).entries := by
  have : ∃ e, FoundAs U o.complete dn as e ∧ run U o [.response m] = ⟨[e], some .lost⟩ := by
    obtain ⟨tag, name, l, rfl, h3, h4⟩ := readOp_entry h
    obtain ⟨e, h5, h6⟩ := readEntry_eq (c := o.complete) hU h3 h4 hd hp
    refine ⟨e, h6, ?_⟩
    show response U o start (.searchEntry tag name l) = _
    simp [response, h5, hr e h6, start]
  obtain ⟨e, h1, h2⟩ := this
  have h3 := ends_once (U := U) (o := o) [.response m] later .lost (by rw [h2])
  rw [List.singleton_append, h2] at h3
  rw [h3]
  exact ⟨rfl, .entry h h1 .nil⟩

/-- **C52** A result code that is no number fails the search. -/
theorem codeless (hU : Sane U) (hq : Quiet o) (ms : List Obj) (hm : ∀ m ∈ ms, Sound U m) (tag : UInt8) (code matched message creds : PyVal)
    (hc : ∀ c, code ≠ .int c) :
    (run U o ((ms ++ [Obj.result .searchResultDone tag code matched message creds]).map .response)).outcome = some (.failed code message) := by
  obtain ⟨es, h1, h2⟩ := run_done hU hq ms hm (.result .searchResultDone tag code matched message creds)
  rw [h2]
  have : kind code = .other := by
    cases code with
    | int c => exact absurd rfl (hc c)
    | bytes b => rfl
    | none => rfl
  simp [response, this]

/-! ### Examples -/

/-- Two entries and a reference. -/
def replies : List Obj :=
  [(Op.entry (Server.ascii "cn=a") [(Server.ascii "cn", [Server.ascii "a", Server.ascii "b"]), (Server.ascii "mail", [])]).build,
   (Op.reference [Server.ascii "ldap://other"]).build, (Op.entry (Server.ascii "cn=b") []).build]

theorem readOp_replies : replies.map readOp = [some (.entry (Server.ascii "cn=a") [(Server.ascii "cn", [Server.ascii "a", Server.ascii "b"]), (Server.ascii "mail", [])]),
    some (.reference [Server.ascii "ldap://other"]), some (.entry (Server.ascii "cn=b") [])] := rfl

theorem replies_sound : ∀ m ∈ replies, Sound asciiTables m := by
  intro m hm
  rcases List.mem_cons.mp hm with rfl | hm
  · refine .inr ⟨_, _, [[⟨"cn".toList, "a".toList⟩]], rfl, ⟨"cn=a".toList, by decide +kernel, by decide +kernel⟩, ?_, ?_⟩
    · decide +kernel
    · decide +kernel
  rcases List.mem_cons.mp hm with rfl | hm
  · exact .inl ⟨_, rfl⟩
  · rw [List.mem_singleton.mp hm]
    refine .inr ⟨_, _, [[⟨"cn".toList, "b".toList⟩]], rfl, ⟨"cn=b".toList, by decide +kernel, by decide +kernel⟩, ?_, ?_⟩
    · simp
    · exact .nil

example : (run asciiTables ⟨true, false, fun _ => false⟩ ((replies ++ [(Op.result .searchDone 4 [] []).build]).map .response)).outcome = some .finished :=
  (limit_swallowed asciiTables_sane (fun _ => rfl) rfl replies replies_sound _ [] rfl).1

example : (run asciiTables ⟨true, false, fun _ => false⟩ ((replies ++ [(Op.result .searchDone 32 (Server.ascii "dc=x") []).build]).map .response)).outcome =
    some (.failed (.int 32) (.bytes [])) :=
  fails asciiTables_sane (fun _ => rfl) replies replies_sound _ 32 (by decide) (by decide) _ [] rfl

example : (run asciiTables ⟨true, false, fun _ => false⟩ ((replies ++ [(Op.bindResponse 0 [] [] none).build]).map .response)).outcome = some .lost :=
  unexpected asciiTables_sane (fun _ => rfl) replies replies_sound _ _ rfl (by simp) (by simp) (by simp)

example : (run asciiTables ⟨true, false, fun _ => false⟩ ((replies ++ [(Op.entry (Server.ascii "cn") []).build]).map .response)).outcome = some .lost := by
  refine nameless asciiTables_sane (fun _ => rfl) replies replies_sound _ _ _ rfl ?_
  rintro d ⟨s, h1, h2⟩
  have : Utf8.decode (Server.ascii "cn") = .ok "cn".toList := by decide +kernel
  rw [this] at h1
  cases h1
  revert h2
  have : (Dn.Dn.parse asciiTables "cn".toList).isOk = false := by decide +kernel
  intro h
  rw [h] at this
  cases this

example : (run asciiTables ⟨true, false, fun _ => true⟩ [.response replies.head!, .lost]).outcome = some .lost := by
  have h := replies_sound replies.head! List.mem_cons_self
  rcases h with ⟨us, h⟩ | ⟨dn, as, d, h, hd, hp⟩
  · cases h
  · exact (callback_raises asciiTables_sane _ dn as d (fun _ _ => rfl) h hd hp _).1

example : (run asciiTables ⟨true, false, fun _ => false⟩ ((replies ++ [(Op.result .searchDone 0 [] []).build]).map .response)).entries.map (·.dn) =
    [[[⟨"cn".toList, "a".toList⟩]], [[⟨"cn".toList, "b".toList⟩]]] := by decide +kernel

end Verif.C52
