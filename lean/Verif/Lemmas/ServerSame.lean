import Verif.Lemmas.ServerSearch
import Verif.Lemmas.Transport
import Verif.Spec.Proxied
/-
What the server does with a request depends neither on its message id nor on controls that are not critical.
-/
namespace Verif.Server
open Verif.Ldap Verif.Spec

/-- A list of attributes that is not too long. -/
def Bounded (l : Spec.Attrs) : Prop := l.length < 2 ^ 51 ∧ ∀ kv ∈ l, attrSize kv ≤ 2 ^ 70

theorem bounded_size {dn : Bytes} {l : Spec.Attrs} (hd : Fit dn) (hb : Bounded l) : (Op.entry dn l).size < 2 ^ 150 := by
  have h2 := sizeSum_le attrSize _ l hb.2
  have h3 : l.length * 2 ^ 70 ≤ 2 ^ 51 * 2 ^ 70 := Nat.mul_le_mul_right _ (by have := hb.1; omega)
  unfold Fit at hd
  simp only [Op.size, octSize, elementSize]
  omega

theorem attrSize_le {k : Bytes} {ws : List Bytes} (hk : k.length < 2 ^ 50) (hn : ws.length < 2 ^ 32) (hw : ∀ w ∈ ws, Fit w) :
    attrSize (k, ws) ≤ 2 ^ 70 := by
  have h1 : sizeSum octSize ws ≤ ws.length * 2 ^ 33 := by
    refine sizeSum_le _ _ _ fun w hw' => ?_
    have := hw w hw'
    unfold Fit at this
    simp only [octSize, elementSize]; omega
  have : ws.length * 2 ^ 33 ≤ 2 ^ 32 * 2 ^ 33 := Nat.mul_le_mul_right _ (by omega)
  simp only [attrSize, octSize, elementSize] at h1 ⊢
  omega

theorem firstOf_mem {U : Unicode} {d : Verif.Attrs} {ks : List PyStr} {vs : List PyStr} (h : Entry.firstOf U d ks = some vs) :
    ∃ k, (k, vs) ∈ d := by
  induction ks with
  | nil => cases h
  | cons k ks ih =>
    rw [Entry.firstOf] at h
    split at h
    · rename_i he
      cases h
      obtain ⟨k', hm, -⟩ := Match.find_mem he
      exact ⟨k', hm⟩
    · exact ih h

theorem get_mem {U : Unicode} {e : Entry} {k : PyStr} {vs : List PyStr} (h : e.get U k = .ok (some vs)) :
    ∃ k, (k, vs) ∈ e.attrs := by
  simp only [Entry.get, bind, Except.bind, pure, Except.pure] at h
  split at h
  · cases h
  · exact firstOf_mem (Except.ok.inj h)

theorem requested_bounded {U : Unicode} {e : Entry} (hm : Modest e []) (as : List PyVal)
    (has : ∀ k, PyVal.bytes k ∈ as → k.length < 2 ^ 50) {r : List (PyVal × List PyVal)} (h : requested U e as = .ok r) :
    ∃ l, r = fields l ∧ l.length ≤ as.length ∧ ∀ kv ∈ l, attrSize kv ≤ 2 ^ 70 := by
  induction as generalizing r with
  | nil => cases h; exact ⟨[], rfl, by simp, by simp⟩
  | cons a as ih =>
    have has' : ∀ k, PyVal.bytes k ∈ as → k.length < 2 ^ 50 := fun k hk => has k (List.mem_cons_of_mem _ hk)
    cases a with
    | bytes k =>
      simp only [requested, bind, Except.bind] at h
      split at h
      · cases h
      · rename_i x hg
        split at h
        · cases h
        · rename_i rest hr
          obtain ⟨l, rfl, h1, h2⟩ := ih has' hr
          cases x with
          | none => cases h; exact ⟨l, rfl, by simp; omega, h2⟩
          | some vs =>
            cases h
            obtain ⟨k', hmem⟩ := get_mem hg
            obtain ⟨-, a2, a3⟩ := hm.names k' vs hmem
            refine ⟨(k, vs.map PyStr.toBytes) :: l, by simp [fields], by simp; omega, ?_⟩
            intro kv hkv
            rcases List.mem_cons.mp hkv with rfl | hkv
            · refine attrSize_le (has k List.mem_cons_self) (by simpa using a2) ?_
              intro w hw
              obtain ⟨v, hv, rfl⟩ := List.mem_map.mp hw
              exact a3 v hv
            · exact h2 kv hkv
    | int i =>
      obtain ⟨l, h0, h1, h2⟩ := ih has' (by simpa [requested] using h)
      exact ⟨l, h0, by simp; omega, h2⟩
    | none =>
      obtain ⟨l, h0, h1, h2⟩ := ih has' (by simpa [requested] using h)
      exact ⟨l, h0, by simp; omega, h2⟩

theorem sortValues_mem {vs ws : List PyStr} (h : sortValues vs = .ok ws) : ws.Perm vs := by
  unfold sortValues at h
  split at h
  · cases h; exact Delta.sortBytes_perm vs
  · cases h

theorem otherItems_bounded {U : Unicode} (d : Verif.Attrs) {r : Verif.Attrs} (h : otherItems U d = .ok r) :
    r.length ≤ d.length ∧ ∀ k ws, (k, ws) ∈ r → ∃ vs, (k, vs) ∈ d ∧ ws.Perm vs := by
  induction d generalizing r with
  | nil => cases h; simp
  | cons p d ih =>
    obtain ⟨k, vs⟩ := p
    simp only [otherItems] at h
    split at h
    · obtain ⟨h1, h2⟩ := ih h
      refine ⟨by simp; omega, fun k ws hk => ?_⟩
      obtain ⟨vs, hv, hp⟩ := h2 k ws hk
      exact ⟨vs, List.mem_cons_of_mem _ hv, hp⟩
    · simp only [bind, Except.bind] at h
      split at h
      · cases h
      · rename_i vs' hs
        split at h
        · cases h
        · rename_i r' hr
          cases h
          obtain ⟨h1, h2⟩ := ih hr
          refine ⟨by simp; omega, fun k' ws hk => ?_⟩
          rcases List.mem_cons.mp hk with hk | hk
          · cases hk; exact ⟨vs, List.mem_cons_self, sortValues_mem hs⟩
          · obtain ⟨vs, hv, hp⟩ := h2 k' ws hk
            exact ⟨vs, List.mem_cons_of_mem _ hv, hp⟩

theorem classKeys_fit (env : Env) : ∀ k ∈ classKeys env, k.toBytes.length < 2 ^ 50 ∧ (classKeys env).length = 2 := by
  intro k hk
  have h1 : (PyStr.text "objectClass".toList).toBytes.length < 2 ^ 50 := by decide +kernel
  have h2 : (PyStr.bytes (ascii "objectClass")).toBytes.length < 2 ^ 50 := by decide +kernel
  have hl : (classKeys env).length = 2 := by unfold classKeys; split <;> rfl
  refine ⟨?_, hl⟩
  unfold classKeys at hk
  split at hk <;> simp only [List.mem_cons, List.not_mem_nil, or_false] at hk <;> rcases hk with rfl | rfl
  all_goals first | exact h1 | exact h2

theorem items_bounded {env : Env} {e : Entry} {l : Verif.Attrs} (h : items env e = .ok l) :
    l.length ≤ e.attrs.length + 2 ∧ ∀ k ws, (k, ws) ∈ l →
      ∃ k' vs, (k', vs) ∈ e.attrs ∧ ws.Perm vs ∧ (k = k' ∨ k.toBytes.length < 2 ^ 50) := by
  simp only [items, bind, Except.bind] at h
  split at h
  · cases h
  · rename_i r hr
    have h := Except.ok.inj h
    obtain ⟨h1, h2⟩ := otherItems_bounded _ hr
    have hperm := sortItems_perm e.attrs
    have hlen : (classKeys env).length = 2 := by unfold classKeys; split <;> rfl
    rw [← h]
    constructor
    · rw [List.length_append]
      rw [hperm.length_eq] at h1
      exact Nat.le_trans (Nat.add_le_add (List.length_filterMap_le _ _) h1) (by omega)
    · intro k ws hk
      rcases List.mem_append.mp hk with hk | hk
      · obtain ⟨c, hc, he⟩ := List.mem_filterMap.mp hk
        split at he
        · rename_i v vs hf
          cases he
          obtain ⟨k', hm, -⟩ := Match.find_mem hf
          exact ⟨k', _, hm, Delta.sortBytes_perm _, .inr (classKeys_fit env _ hc).1⟩
        · cases he
      · obtain ⟨vs, hv, hp⟩ := h2 k ws hk
        exact ⟨k, vs, hperm.mem_iff.mp hv, hp, .inl rfl⟩

/-- Every entry that is sent is of moderate size. -/
theorem resultEntry_bounded {env : Env} {e : Entry} (hm : Modest e []) {as : List PyVal} (hn : as.length < 2 ^ 50)
    (has : ∀ k, PyVal.bytes k ∈ as → k.length < 2 ^ 50) {o : Obj} (h : resultEntry env as e = .ok o) :
    ∃ dn l, o = (Op.entry dn l).build ∧ (Op.entry dn l).size < 2 ^ 150 := by
  simp only [resultEntry, bind, Except.bind] at h
  split at h
  · cases h
  · rename_i r hr
    have h := Except.ok.inj h
    have main : ∃ l, r = fields l ∧ Bounded l := by
      unfold resultAttrs at hr
      split at hr
      · obtain ⟨l, h1, h2, h3⟩ := requested_bounded hm as has hr
        exact ⟨l, h1, by omega, h3⟩
      · simp only [allItems, bind, Except.bind] at hr
        split at hr
        · cases hr
        · rename_i l hl
          have hr := Except.ok.inj hr
          obtain ⟨h1, h2⟩ := items_bounded hl
          refine ⟨l.map fun p => (p.1.toBytes, p.2.map PyStr.toBytes), by rw [← hr]; simp [fields], ?_, ?_⟩
          · have := hm.count; simp; omega
          · intro kv hkv
            obtain ⟨⟨k, ws⟩, hp, rfl⟩ := List.mem_map.mp hkv
            obtain ⟨k', vs, hv, hperm, hk⟩ := h2 k ws hp
            obtain ⟨a1, a2, a3⟩ := hm.names k' vs hv
            refine attrSize_le ?_ (by rw [List.length_map, hperm.length_eq]; exact a2) ?_
            · rcases hk with rfl | hk
              · unfold Fit at a1; simp only; omega
              · exact hk
            · intro w hw
              obtain ⟨v, hv, rfl⟩ := List.mem_map.mp hw
              exact a3 v (hperm.mem_iff.mp hv)
    obtain ⟨l, rfl, hb⟩ := main
    exact ⟨_, l, h.symm, bounded_size hm.dn hb⟩

/-! ### One request -/

/-- Two valid message ids. -/
def IdRange (i : Int) : Prop := 0 < i ∧ i < 2 ^ 31

/-- What the server may send: it is read as it was written, and can be written with every message id. -/
structure Response (r : Op) : Prop where
  wf : r.WF
  same : received r = r.build
  encodes : ∀ i, IdRange i → encodes (.int i) r.build = true
  response : Client.isResponse r.build = true

theorem Response.entry {dn : Bytes} {l : Spec.Attrs} (h : (Op.entry dn l).size < 2 ^ 150) : Response (.entry dn l) :=
  ⟨trivial, rfl, fun i hi => encodes_big i _ ⟨Int.le_of_lt hi.1, hi.2⟩ h, rfl⟩

theorem Response.final {request : Obj} {op : Op} (h : FinalFor request op) (hs : op.size < 2 ^ 50) : Response op := by
  have he : ∀ i, IdRange i → Server.encodes (.int i) op.build = true := fun i hi => encodes_op i op ⟨Int.le_of_lt hi.1, hi.2⟩ hs
  cases h
  case bind => exact ⟨by simp [Op.WF], rfl, he, rfl⟩
  case search => exact ⟨trivial, rfl, he, rfl⟩
  case modify => exact ⟨trivial, rfl, he, rfl⟩
  case add => exact ⟨trivial, rfl, he, rfl⟩
  case delete => exact ⟨trivial, rfl, he, rfl⟩
  case modifyDN => exact ⟨trivial, rfl, he, rfl⟩
  case compare => exact ⟨trivial, rfl, he, rfl⟩
  case extended => exact ⟨trivial, rfl, he, rfl⟩

theorem entryAt_modest {h : Tree.Heap} (hh : ∀ n ∈ h, Modest n.entry []) (i : Nat) : Modest (entryAt h i) [] := by
  unfold entryAt
  cases hn : h[i]? with
  | none =>
    refine ⟨?_, ?_, ?_, ?_⟩
    · unfold Fit; simp [Dn.Dn.text, joinWith, Utf8.encode]
    · simp
    · simp
    · simp
  | some n => exact hh n (List.mem_of_getElem? hn)

section
variable {env : Env} {luck : Luck} {h : Tree.Heap} (hh : ∀ n ∈ h, Modest n.entry []) {as : List PyVal} (hn : as.length < 2 ^ 50)
  (has : ∀ k, PyVal.bytes k ∈ as → k.length < 2 ^ 50)
include hh hn has

theorem sendIfMatch_id {i j : Int} (hi : IdRange i) (hj : IdRange j) (f : Match.Filter) :
    sendIfMatch env h (.int i) f as = sendIfMatch env h (.int j) f as := by
  funext x
  unfold sendIfMatch
  split
  · rfl
  · rfl
  · split
    · rename_i o ho
      obtain ⟨dn, l, rfl, hs⟩ := resultEntry_bounded (entryAt_modest hh x) hn has ho
      rw [(Response.entry hs).encodes i hi, (Response.entry hs).encodes j hj]
    · rfl

theorem searchAt_id {i j : Int} (hi : IdRange i) (hj : IdRange j) (d : Dn.Dn) (scope : PyVal) (filter : Obj) :
    searchAt env luck h (.int i) d scope filter as = searchAt env luck h (.int j) d scope filter as := by
  unfold searchAt
  rw [sendIfMatch_id hh hn has hi hj]

theorem searchAt_entries {i : Int} (d : Dn.Dn) (scope : PyVal) (filter : Obj) :
    ∀ o ∈ (searchAt env luck h (.int i) d scope filter as).1, ∃ dn l, o = (Op.entry dn l).build ∧ Response (.entry dn l) := by
  intro o ho
  have key : ∀ j s, ∀ x ∈ (searchNodes h j s (sendIfMatch env h (.int i) (toFilter filter) as)).1,
      ∃ dn l, entryFor env h as x = (Op.entry dn l).build ∧ Response (.entry dn l) := by
    intro j s x hx
    have := searchNodes_accept j s x hx
    unfold sendIfMatch at this
    split at this
    · cases this
    · cases this
    · split at this
      · rename_i o ho
        obtain ⟨dn, l, rfl, hs⟩ := resultEntry_bounded (entryAt_modest hh x) hn has ho
        exact ⟨dn, l, by simp only [entryFor, ho], Response.entry hs⟩
      · cases this
  unfold searchAt at ho
  split at ho
  · cases ho
  · split at ho
    · cases ho
    · rename_i j hj _ s hs
      split at ho
      · rename_i l hl
        obtain ⟨x, hx, rfl⟩ := List.mem_map.mp ho
        exact key _ _ x (by rw [hl]; exact hx)
      · rename_i l hl
        obtain ⟨x, hx, rfl⟩ := List.mem_map.mp ho
        exact key _ _ x (by rw [hl]; exact hx)
end

theorem rootDSE_response {h : Tree.Heap} (hh : ∀ n ∈ h, Modest n.entry []) :
    ∃ dn l, rootDSE h = (Op.entry dn l).build ∧ Response (.entry dn l) := by
  refine ⟨[], [(ascii "supportedLDAPVersion", [ascii "3"]), (ascii "namingContexts", [dnOctets h 0]),
     (ascii "supportedExtension", [ascii "1.3.6.1.4.1.4203.1.11.1"])], rfl, Response.entry (bounded_size (by simp [Fit]) ?_)⟩
  refine ⟨by simp, ?_⟩
  have h1 : (ascii "supportedLDAPVersion").length = 20 := by decide +kernel
  have h2 : (ascii "3").length = 1 := by decide +kernel
  have h3 : (ascii "namingContexts").length = 14 := by decide +kernel
  have h4 : (ascii "supportedExtension").length = 18 := by decide +kernel
  have h5 := oid_length
  have h6 := dnOctets_fit (h := h) (fun n hn => (hh n hn).dn) 0
  intro kv hkv
  simp only [List.mem_cons, List.not_mem_nil, or_false] at hkv
  rcases hkv with rfl | rfl | rfl <;> simp only [attrSize, octSize, elementSize, sizeSum, h1, h2, h3, h4, h5] <;> omega

/-- The attribute list of a search is not too long. -/
def ShortList (request : Obj) : Prop :=
  ∀ t b s d sl tl ty f as, request = .searchRequest t b s d sl tl ty f as →
    as.length < 2 ^ 50 ∧ ∀ k, PyVal.bytes k ∈ as → k.length < 2 ^ 50

theorem handleSearch_id {env : Env} {luck : Luck} {h : Tree.Heap} (hh : ∀ n ∈ h, Modest n.entry []) {as : List PyVal}
    (hn : as.length < 2 ^ 50) (has : ∀ k, PyVal.bytes k ∈ as → k.length < 2 ^ 50) {i j : Int} (hi : IdRange i) (hj : IdRange j)
    (base scope : PyVal) (filter : Obj) :
    handleSearch env luck h (.int i) base scope filter as none = handleSearch env luck h (.int j) base scope filter as none := by
  obtain ⟨dn, l, hr, hR⟩ := rootDSE_response hh
  unfold handleSearch
  rw [hr, hR.encodes i hi, hR.encodes j hj]
  simp only [searchAt_id hh hn has hi hj]

theorem handleSearch_entries {env : Env} {luck : Luck} {h : Tree.Heap} (hh : ∀ n ∈ h, Modest n.entry []) {as : List PyVal}
    (hn : as.length < 2 ^ 50) (has : ∀ k, PyVal.bytes k ∈ as → k.length < 2 ^ 50) {i : Int} {base scope : PyVal} {filter : Obj}
    {r : List Obj × Obj} (hs : handleSearch env luck h (.int i) base scope filter as none = .ok r) :
    ∀ o ∈ r.1, ∃ dn l, o = (Op.entry dn l).build ∧ Response (.entry dn l) := by
  obtain ⟨dn, l, hr, hR⟩ := rootDSE_response hh
  simp only [handleSearch, bind, Except.bind, checkControls] at hs
  split at hs
  · cases hs
  · split at hs
    · split at hs
      · cases hs
        intro o ho
        simp only [List.mem_singleton] at ho
        exact ⟨dn, l, ho.trans hr, hR⟩
      · cases hs
    · split at hs
      · cases hs
      · cases hs
        exact searchAt_entries hh hn has _ _ _

theorem call_same {env : Env} {luck : Luck} {st : State} {request : Obj} {controls : Option (List (PyVal × PyVal × PyVal))}
    (hr : Answerable request) (hc : checkControls controls = .ok ()) (hh : ∀ n ∈ st.heap, Modest n.entry [])
    (hs : ShortList request) {i j : Int} (hi : IdRange i) (hj : IdRange j) :
    call env luck st (.int i) request controls = call env luck st (.int j) request none := by
  have h0 : checkControls none = .ok () := rfl
  cases hr
  case search =>
    obtain ⟨hn, has⟩ := hs _ _ _ _ _ _ _ _ _ rfl
    have : ∀ base scope filter as, handleSearch env luck st.heap (.int i) base scope filter as controls =
        handleSearch env luck st.heap (.int i) base scope filter as none := by
      intro base scope filter as
      simp only [handleSearch, hc, h0]
    simp only [call, this, handleSearch_id hh hn has hi hj]
  case bind => simp only [call, handleBind, hc, h0]
  case compare => simp only [call, handleCompare, hc, h0]
  case add => simp only [call, handleAdd, hc, h0]
  case delete => simp only [call, handleDelete, hc, h0]
  case extended => simp only [call, handleExtended, hc, h0]
  case modifyDN => simp only [call, handleModifyDN, modifyDNTarget, hc, h0]
  case modify => simp only [call, handleModify, modifyTarget, hc, h0]

theorem call_entries {env : Env} {luck : Luck} {st : State} {request : Obj} (hr : Answerable request)
    (hh : ∀ n ∈ st.heap, Modest n.entry []) (hs : ShortList request) {i : Int} :
    ∀ o ∈ (call env luck st (.int i) request none).sent, ∃ dn l, o = (Op.entry dn l).build ∧ Response (.entry dn l) := by
  have onH : ∀ x, (onHeap st x).sent = [] := by intro x; cases x <;> rfl
  cases hr
  case search =>
    obtain ⟨hn, has⟩ := hs _ _ _ _ _ _ _ _ _ rfl
    simp only [call]
    split
    · rename_i h
      exact handleSearch_entries hh hn has h
    · simp
  case bind => simp only [call]; split <;> simp
  case compare => simp only [call]; split <;> simp
  case add => simp [call, onH]
  case delete => simp [call, onH]
  case extended => simp [call, onH]
  case modifyDN => simp only [call]; split <;> simp
  case modify => simp only [call]; split <;> simp

/-- A response without a message cannot be encoded. -/
theorem object_unsent (id : PyVal) (c : Cls) (t : UInt8) (code : Int) : encodes id (respond c t code .object) = false := by
  have h : (toWire (respond c t code .object)).isOk = false := by
    simp only [respond, Message.value, toWire, encOct]
    cases encInt 0x0A (.int code) with
    | error e => rfl
    | ok a =>
      cases toBytes (.bytes []) with
      | error e => rfl
      | ok b =>
        simp only [bind, Except.bind]
        split <;> rfl
  unfold encodes
  simp only [toWire]
  cases hid : encInt 0x02 id with
  | error e => rfl
  | ok a =>
    cases hw : toWire (respond c t code .object) with
    | error e => rfl
    | ok w => rw [hw] at h; cases h

theorem nonleaf_unanswered {env : Env} {luck : Luck} {st : State} {id : PyVal} {request : Obj}
    (h : DeletesNonLeaf env st request) : ∃ t v, request = .oct .delRequest t v ∧
      call env luck st id request none = ⟨st, [], .error (.ldap 66 .object)⟩ := by
  obtain ⟨t, v, s, d, i, n, rfl, h1, h2, h3, h4, h5, h6⟩ := h
  refine ⟨t, v, rfl, ?_⟩
  have hdel : Tree.delete st.heap i = .error .notAllowedOnNonLeaf := by
    unfold Tree.delete
    rw [h4]
    cases hp : n.parent with
    | none => exact absurd hp h5
    | some p => simp [hp, h6]
  simp only [call, handleDelete, checkControls, readDn, h1, h2, h3, hdel, lift, bind, Except.bind, deleteFault, onHeap]

/-- One request: the same responses and the same state, whatever the message id. -/
theorem served {env : Env} {luck : Luck} {st : State} {request : Obj} (hr : Answerable request) (hf : Fits luck st request none)
    (hh : ∀ n ∈ st.heap, Modest n.entry []) (hs : ShortList request) :
    ∃ (ans : List Op) (st' : State), (∀ i controls, IdRange i → checkControls controls = .ok () →
        serve env luck st (.message (.int i) request controls) = some ⟨st', ans.map fun r => (.int i, r.build)⟩) ∧
      (∀ r ∈ ans, Response r) ∧ ∃ es fin : List Op, ans = es ++ fin ∧ fin.length ≤ 1 ∧ ∀ r ∈ es, Merger.isFinal r.build = false := by
  have h1 : IdRange 1 := ⟨by omega, by omega⟩
  have key : ∀ i controls, IdRange i → checkControls controls = .ok () →
      serve env luck st (.message (.int i) request controls) =
        some ⟨(call env luck st (.int 1) request none).state,
          (call env luck st (.int 1) request none).sent.map (fun o => (PyVal.int i, o)) ++
          match (call env luck st (.int 1) request none).result with
          | .ok none => []
          | .ok (some r) => final (.int i) r
          | .error f => final (.int i) (failWith request (f.report luck).1 (f.report luck).2)⟩ := by
    intro i controls hi hc
    have h0 : PyVal.int i ≠ .int 0 := by
      intro h
      have := PyVal.int.inj h
      have := hi.1
      omega
    simp only [serve, Answerable.isRequest hr, if_neg h0, call_same hr hc hh hs hi h1, if_true]
    generalize call env luck st (.int 1) request none = d
    obtain ⟨a, b, c⟩ := d
    cases c with
    | error f => rfl
    | ok r => cases r <;> rfl
  have hent := call_entries (env := env) (luck := luck) hr hh hs (i := 1)
  have hes : ∃ es : List Op, (call env luck st (.int 1) request none).sent = es.map Op.build ∧
      ∀ r ∈ es, Response r ∧ Merger.isFinal r.build = false := by
    generalize (call env luck st (.int 1) request none).sent = l at hent
    induction l with
    | nil => exact ⟨[], rfl, by simp⟩
    | cons o l ih =>
      obtain ⟨es, rfl, h2⟩ := ih fun o ho => hent o (List.mem_cons_of_mem _ ho)
      obtain ⟨dn, as, rfl, h3⟩ := hent o List.mem_cons_self
      refine ⟨.entry dn as :: es, rfl, ?_⟩
      intro r hr
      rcases List.mem_cons.mp hr with rfl | hr
      · exact ⟨h3, rfl⟩
      · exact h2 r hr
  obtain ⟨es, he1, he2⟩ := hes
  have hfin : ∃ fin : List Op, fin.length ≤ 1 ∧ (∀ r ∈ fin, Response r) ∧ ∀ i, IdRange i →
      (match (call env luck st (.int 1) request none).result with
          | .ok none => []
          | .ok (some r) => final (.int i) r
          | .error f => final (.int i) (failWith request (f.report luck).1 (f.report luck).2)) =
        fin.map fun r => (PyVal.int i, r.build) := by
    by_cases hl : DeletesNonLeaf env st request
    · obtain ⟨t, v, hreq, hcall⟩ := nonleaf_unanswered (luck := luck) (id := .int 1) hl
      refine ⟨[], by simp, by simp, fun i _ => ?_⟩
      rw [hcall, hreq]
      simp only [Fault.report, failWith, final, object_unsent]
      rfl
    · have hpost := (call_ends (env := env) (id := .int 1) hr hf hl).result
      have one : ∀ r, Answer request r → ∃ fin : List Op, fin.length ≤ 1 ∧ (∀ r ∈ fin, Response r) ∧
          ∀ i, IdRange i → final (.int i) r = fin.map fun r => (PyVal.int i, r.build) := by
        rintro r ⟨op, rfl, hfor, hsz⟩
        have hR := Response.final hfor hsz
        refine ⟨[op], by simp, by simpa using hR, fun i hi => ?_⟩
        simp [final, hR.encodes i hi]
      generalize (call env luck st (.int 1) request none).result = res at hpost
      cases res with
      | ok r =>
        obtain ⟨o, rfl, ha⟩ := hpost
        exact one o ha
      | error f =>
        obtain ⟨b, hm, hb, a1, a2⟩ := hpost
        exact one _ (answer_failWith hr hm hb ⟨a1, a2⟩)
  obtain ⟨fin, hf1, hf2, hf3⟩ := hfin
  refine ⟨es ++ fin, (call env luck st (.int 1) request none).state, fun i controls hi hc => ?_, ?_, es, fin, rfl, hf1, fun r hr => (he2 r hr).2⟩
  · rw [key i controls hi hc, hf3 i hi, he1, List.map_append, List.map_map]
    rfl
  · intro r hr
    rcases List.mem_append.mp hr with hr | hr
    · exact (he2 r hr).1
    · exact hf2 r hr

end Verif.Server
