import Verif.Props.C24
import Verif.Props.C67
/-
C68  Add and delete requests keep the directory in step with a finite map from names to attributes.

`conversation_partial`: over a whole conversation of add and delete requests, with requests that only read in between,
every request is answered as the map says, and the directory holds what the map holds.  Missing is the answer to the delete
request for an entry that has entries below it: it is refused but not answered (C40 `delete_nonleaf_unanswered`), and `Reply`
says so.  RDNs must be spelled in one way throughout (C24 `respelled_twin`).
-/
namespace Verif.C68
open Verif.Ldap Verif.Spec Verif.Server Verif.Tree

/-- The attributes of an add request as they are to be stored. -/
def stored (as : Spec.Attrs) : List (PyStr × List PyStr) := as.map fun kv => (.bytes kv.1, kv.2.map .bytes)

/-- RFC 4511 section 4.7: attributes are ASCII names, none is given twice, nor is any of its values. -/
structure Proper (as : Spec.Attrs) : Prop where
  ascii : ∀ kv ∈ as, (PyStr.bytes kv.1).Ascii
  names : as.Pairwise fun p q => ¬ SameName (.bytes p.1) (.bytes q.1)
  values : ∀ kv ∈ as, kv.2.Nodup

/-- The DN in a request. -/
def Names (U : Unicode) (b : Bytes) (d : Dn.Dn) : Prop := ∃ s, Utf8.decode b = .ok s ∧ Dn.Dn.parse U s = .ok d

/-- What an operation asks of the directory; `none` if it only reads. -/
inductive Means (U : Unicode) : Op → Option Request → Prop where
  | add {dn as rdn parent} : Names U dn (rdn :: parent) → Proper as → Means U (.add dn as) (some (.add parent rdn (stored as)))
  | delete {dn d} : Names U dn d → Means U (.delete dn) (some (.delete d))
  | search {b s d sl tl ty f as} : Means U (.search b s d sl tl ty f as) none
  | compare {dn a v} : Means U (.compare dn a v) none
  | bind {v dn p} : Means U (.bindSimple v dn p) none

/-- The LDAP result codes, RFC 4511 section 4.1.9. -/
inductive Code : PyErr → Int → Prop where
  | noSuchObject : Code .noSuchObject 32
  | alreadyExists : Code .alreadyExists 68
  | cannotRemoveRoot : Code .cannotRemoveRoot 64

/-- The reply to an operation that ended this way. -/
inductive Reply : Op → Option PyErr → List Op → Prop where
  | added {dn as} : Reply (.add dn as) none [.result .add 0 [] []]
  | notAdded {dn as e c m} : Code e c → Reply (.add dn as) (some e) [.result .add c [] m]
  | deleted {dn} : Reply (.delete dn) none [.result .delete 0 [] []]
  | notDeleted {dn e c m} : Code e c → Reply (.delete dn) (some e) [.result .delete c [] m]
  | nonLeaf {dn} : Reply (.delete dn) (some .notAllowedOnNonLeaf) []

/-- A conversation: the operations, each with its message id and the messages sent in reply. -/
inductive Conversation (env : Env) : State → List (Int × Op × List (PyVal × Obj)) → State → Prop where
  | nil (st) : Conversation env st [] st
  | cons {st luck i op s rest st'} : serve env luck st (.message (.int i) op.build none) = some s → (∀ e, Fit (luck.text e)) →
      Conversation env s.state rest st' → Conversation env st ((i, op, s.sent) :: rest) st'

/-- The same conversation with the finite map: every reply is the right one. -/
inductive Follows (U : Unicode) (root : Name) : Directory → List (Int × Op × List (PyVal × Obj)) → Directory → Prop where
  | nil (D) : Follows U root D [] D
  | read {D i op sent rest D'} : Means U op none → Follows U root D rest D' → Follows U root D ((i, op, sent) :: rest) D'
  | request {D i op r ops rest D'} : Means U op (some r) → Reply op (D.step U root r).2 ops →
      Follows U root (D.step U root r).1 rest D' →
      Follows U root D ((i, op, ops.map fun o => (PyVal.int i, o.build)) :: rest) D'

/-! Attributes. -/

theorem valuesOf_octets (vs : List Bytes) : valuesOf (vs.map octet) = .ok (vs.map .bytes) := by
  induction vs with
  | nil => rfl
  | cons v vs ih => simp [valuesOf, octets?, octet, Obj.value, octetsOf, ih, bind, Except.bind, pure, Except.pure]

theorem attributeOf_attrObj (kv : Bytes × List Bytes) : attributeOf (attrObj kv) = .ok (.bytes kv.1, kv.2.map .bytes) := by
  have := valuesOf_octets kv.2
  simp only [attributeOf, attrObj, seqObj, setObj, Obj.iter, Obj.data?, bind, Except.bind, this, pure, Except.pure]
  simp [octets?, octet, Obj.value, octetsOf]

theorem mapM_attributeOf (as : Spec.Attrs) : mapM' attributeOf (as.map attrObj) = .ok (stored as) := by
  induction as with
  | nil => rfl
  | cons kv as ih => simp [mapM', attributeOf_attrObj, ih, bind, Except.bind, pure, Except.pure, stored]

theorem mkSet_id {vs : List PyStr} (h : vs.Nodup) : mkSet vs = vs := by
  induction vs with
  | nil => rfl
  | cons v vs ih =>
    rw [List.nodup_cons] at h
    rw [mkSet, ih h.2, if_neg h.1]

theorem collectExact_new {p : PyStr × List PyStr} {d : List (PyStr × List PyStr)} (hp : p.1 ∉ d.map (·.1)) (hn : p.2.Nodup) :
    collectExact p d = d ++ [p] := by
  induction d with
  | nil => simp [collectExact, mkSet_id hn]
  | cons q d ih =>
    obtain ⟨k, vs⟩ := q
    simp only [List.map_cons, List.mem_cons, not_or] at hp
    simp only [collectExact, if_neg (fun h : k = p.1 => hp.1 h.symm), ih hp.2, List.cons_append]

theorem collectAll {l d : List (PyStr × List PyStr)} (hn : ((d ++ l).map (·.1)).Nodup) (hv : ∀ p ∈ l, p.2.Nodup) :
    l.foldl (fun d p => collectExact p d) d = d ++ l := by
  induction l generalizing d with
  | nil => simp
  | cons p l ih =>
    have hp : p.1 ∉ d.map (·.1) := by
      rw [List.map_append, List.nodup_append] at hn
      intro hm
      exact hn.2.2 _ hm _ (by simp) rfl
    rw [List.foldl_cons, collectExact_new hp (hv p List.mem_cons_self), ih (by simpa using hn)
      (fun q hq => hv q (List.mem_cons_of_mem _ hq))]
    simp

theorem Proper.stored_values {as : Spec.Attrs} (h : Proper as) : ∀ p ∈ stored as, p.2.Nodup := by
  intro p hp
  obtain ⟨kv, hkv, rfl⟩ := List.mem_map.mp hp
  simp only
  rw [List.Nodup, List.pairwise_map]
  exact List.Pairwise.imp (fun hne h => hne (by cases h; rfl)) (h.values kv hkv)

theorem addAttributes_stored {as : Spec.Attrs} (h : Proper as) : addAttributes (seqObj (as.map attrObj)) = .ok (stored as) := by
  have hn : ((stored as).map (·.1)).Nodup := by
    unfold stored
    rw [List.map_map, List.Nodup, List.pairwise_map]
    refine List.Pairwise.imp ?_ h.names
    rintro p q hpq hne
    exact hpq (by unfold SameName; simp only [Function.comp] at hne; rw [hne])
  have := collectAll (d := []) (by simpa using hn) h.stored_values
  simp only [addAttributes, seqObj, Obj.iter, Obj.data?, mapM_attributeOf, bind, Except.bind, pure, Except.pure, this,
    List.nil_append]

/-! One request. -/

theorem readDn_names {U : Unicode} {b : Bytes} {d : Dn.Dn} (h : Names U b d) : readDn U (.bytes b) = .ok d := by
  obtain ⟨s, h1, h2⟩ := h
  simp only [readDn, h1, bind, Except.bind]; exact h2

/-- The server does for an add request what the tree does for the corresponding request by name. -/
theorem handleAdd_eq {env : Env} {h : Heap} {dn : Bytes} {rdn : Dn.Rdn} {parent : Dn.Dn} {as : Spec.Attrs}
    (hd : Names env.U dn (rdn :: parent)) (ha : Proper as) :
    handleAdd env h (.bytes dn) (seqObj (as.map attrObj)) none =
      match (Tree.request env.U h (.add parent rdn (stored as))).2 with
      | none => .ok ((Tree.request env.U h (.add parent rdn (stored as))).1, (Op.result .add 0 [] []).build)
      | some e => .error (.py e) := by
  have hr : Dn.Rdn.parse env.U rdn.text = .ok rdn := by
    obtain ⟨s, _, h2⟩ := hd
    exact Dn.Rdn.parse_text env.U rdn ((Dn.Dn.parse_good h2).plain rdn List.mem_cons_self)
  simp only [handleAdd, checkControls, addAttributes_stored ha, readDn_names hd, lift, bind, Except.bind, pure, Except.pure,
    Tree.request]
  cases lookup env.U h 0 parent with
  | error e => rfl
  | ok p =>
    simp only [hr]
    cases addChild env.U h p rdn (stored as) with
    | error e => rfl
    | ok x => rfl

theorem handleDelete_eq {env : Env} {h : Heap} {dn : Bytes} {d : Dn.Dn} (hd : Names env.U dn d)
    (hl : ∀ e, lookup env.U h 0 d = .error e → e = .noSuchObject) :
    handleDelete env h (.bytes dn) none =
      match (Tree.request env.U h (.delete d)).2 with
      | none => .ok ((Tree.request env.U h (.delete d)).1, (Op.result .delete 0 [] []).build)
      | some e => .error (deleteFault e) := by
  simp only [handleDelete, checkControls, readDn_names hd, lift, bind, Except.bind, pure, Except.pure, Tree.request]
  cases hlk : lookup env.U h 0 d with
  | error e =>
    cases hl e hlk
    rfl
  | ok p =>
    simp only []
    cases hd : delete h p with
    | error e => simp
    | ok x => simp; rfl

variable {U : Unicode} {R : Dn.Rdn → Prop} {root : Name} {h : Heap} {D : Directory}

theorem lookup_cases (hs : Sim U R root h D) (hR : Spelled U R) (d : Dn.Dn) : ∀ e, lookup U h 0 d = .error e → e = .noSuchObject := by
  intro e he
  by_cases hh : D.has (Spec.foldDn U d) = true
  · obtain ⟨j, n, hj, _⟩ := hs.lookup_has hR hh
    rw [hj] at he; cases he
  · rw [hs.lookup_not hR hh] at he; cases he; rfl

theorem step_errors (r : Request) (e : PyErr) (h : (D.step U root r).2 = some e) : e = .notAllowedOnNonLeaf ∨ ∃ c, Code e c := by
  cases r <;> simp only [Directory.step] at h <;> (repeat' split at h) <;> cases h
  · exact .inr ⟨_, .noSuchObject⟩
  · exact .inr ⟨_, .alreadyExists⟩
  · exact .inr ⟨_, .noSuchObject⟩
  · exact .inr ⟨_, .cannotRemoveRoot⟩
  · exact .inl rfl
  · exact .inr ⟨_, .noSuchObject⟩
  · exact .inr ⟨_, .noSuchObject⟩

theorem add_errors (p : Dn.Dn) (rdn : Dn.Rdn) (as) (e : PyErr) (h : (D.step U root (.add p rdn as)).2 = some e) : ∃ c, Code e c := by
  simp only [Directory.step] at h
  repeat' split at h
  all_goals cases h
  · exact ⟨_, .noSuchObject⟩
  · exact ⟨_, .alreadyExists⟩

theorem encodes_object (id : PyVal) (c : Cls) (t : UInt8) (code m creds : PyVal) :
    encodes id (.result c t code m .none creds) = false := by
  have h : ∃ e, toWire (.result c t code m .none creds) = .error e := by
    simp only [toWire, bind, Except.bind]
    split
    · exact ⟨_, rfl⟩
    · split
      · exact ⟨_, rfl⟩
      · exact ⟨_, rfl⟩
  obtain ⟨e, h⟩ := h
  unfold encodes
  rw [toWire]
  simp only [h, bind, Except.bind]
  split <;> rfl

/-- One add or delete request. -/
theorem serve_request {env : Env} {luck : Luck} {st : State} {i : Int} {op : Op} {r : Request} (hs : Sim env.U R root st.heap D)
    (hR : Spelled env.U R) (hm : Means env.U op (some r)) (hu : Uses R r) (hi : 0 < i ∧ i < 2 ^ 31) (hf : ∀ e, Fit (luck.text e)) :
    ∃ s ops, serve env luck st (.message (.int i) op.build none) = some s ∧
      s.sent = ops.map (fun o => (PyVal.int i, o.build)) ∧ Reply op (D.step env.U root r).2 ops ∧
      Sim env.U R root s.state.heap (D.step env.U root r).1 := by
  have hi0 : PyVal.int i ≠ .int 0 := by intro h; cases h; omega
  obtain ⟨h1, h2⟩ := step_sim hs hR r hu
  have henc : ∀ (k : ResultKind) (c : Int) (m : Bytes), (0 ≤ c ∧ c < 1024) → m.length < 2 ^ 40 →
      encodes (.int i) (Op.result k c [] m).build = true := fun k c m hc hm =>
    encodes_op i _ ⟨by omega, hi.2⟩ (size_result k hc [] (by simp) hm)
  have hcode : ∀ {e c}, Code e c → 0 ≤ c ∧ c < 1024 ∧ ldapCode e = some c := by
    rintro e c (_ | _ | _) <;> simp [ldapCode]
  have htext : ∀ e, (luck.text e).length < 2 ^ 40 := fun e => by have := hf e; unfold Fit at this; omega
  cases hm with
  | @add dn as rdn parent hn hp =>
    have hh := handleAdd_eq (env := env) (h := st.heap) hn hp
    rw [h1] at hh
    cases hx : (D.step env.U root (.add parent rdn (stored as))).2 with
    | none =>
      rw [hx] at hh
      refine ⟨⟨{ st with heap := (Tree.request env.U st.heap (.add parent rdn (stored as))).1 },
        [(.int i, (Op.result .add 0 [] []).build)]⟩, [.result .add 0 [] []], ?_, rfl, .added, h2⟩
      simp only [Op.build] at hh
      simp only [serve, Op.build, isRequest, if_true, if_neg hi0, call, hh, onHeap, final]
      have := henc .add 0 [] (by omega) (by simp)
      simp only [Op.build] at this
      simp [this]
    | some e =>
      rw [hx] at hh
      obtain ⟨c, hc⟩ := add_errors _ _ _ _ hx
      have hst : (D.step env.U root (.add parent rdn (stored as))).1 = D := by
        revert hx
        simp only [Directory.step]
        repeat' split
        all_goals simp
      have hcode' := hcode hc
      refine ⟨⟨st, [(.int i, (Op.result .add c [] (luck.text e)).build)]⟩, [.result .add c [] (luck.text e)], ?_, rfl, .notAdded hc,
        by rw [hst]; exact hs⟩
      have := henc .add c (luck.text e) ⟨hcode'.1, hcode'.2.1⟩ (htext e)
      simp only [Op.build] at this
      simp only [serve, Op.build, isRequest, if_true, if_neg hi0, call, hh, onHeap, final, Fault.report, hcode'.2.2, Option.getD_some,
        messageOf, failWith, respond, Message.value]
      simp only [ResultKind.cls, ResultKind.tag] at this
      simp [this, ResultKind.cls, ResultKind.tag]
  | @delete dn d hn =>
    have hh := handleDelete_eq (env := env) (h := st.heap) hn (lookup_cases hs hR d)
    rw [h1] at hh
    cases hx : (D.step env.U root (.delete d)).2 with
    | none =>
      rw [hx] at hh
      refine ⟨⟨{ st with heap := (Tree.request env.U st.heap (.delete d)).1 },
        [(.int i, (Op.result .delete 0 [] []).build)]⟩, [.result .delete 0 [] []], ?_, rfl, .deleted, h2⟩
      simp only [Op.build] at hh
      have := henc .delete 0 [] (by omega) (by simp)
      simp only [Op.build] at this
      simp only [serve, Op.build, isRequest, if_true, if_neg hi0, call, hh, onHeap, final]
      simp [this]
    | some e =>
      rw [hx] at hh
      have hst : (D.step env.U root (.delete d)).1 = D := by
        revert hx
        simp only [Directory.step]
        repeat' split
        all_goals simp
      rcases step_errors _ _ hx with rfl | ⟨c, hc⟩
      · refine ⟨⟨st, []⟩, [], ?_, rfl, .nonLeaf, by rw [hst]; exact hs⟩
        simp only [serve, Op.build, isRequest, if_true, if_neg hi0, call, hh, onHeap, final, deleteFault, Fault.report, failWith,
          respond, Message.value]
        simp [encodes_object]
      · have hcode' := hcode hc
        obtain ⟨m, hm, hml⟩ : ∃ m : Bytes, failWith (Op.delete dn).build ((deleteFault e).report luck).1 ((deleteFault e).report luck).2 =
            (Op.result .delete c [] m).build ∧ m.length < 2 ^ 40 := by
          cases hc with
          | noSuchObject => exact ⟨_, rfl, htext _⟩
          | alreadyExists => exact ⟨_, rfl, htext _⟩
          | cannotRemoveRoot => exact ⟨[], rfl, by simp⟩
        refine ⟨⟨st, [(.int i, (Op.result .delete c [] m).build)]⟩, [.result .delete c [] m], ?_, rfl, .notDeleted hc,
          by rw [hst]; exact hs⟩
        have := henc .delete c m ⟨hcode'.1, hcode'.2.1⟩ hml
        have hcall : call env luck st (.int i) (Op.delete dn).build none = ⟨st, [], .error (deleteFault e)⟩ := by
          simp only [Op.build, call, hh, onHeap]
        simp only [serve, hcall, hm, final, this]
        simp [Op.build, isRequest, hi0]

/-- A request that only reads leaves the directory as it is. -/
theorem serve_read {env : Env} {luck : Luck} {st : State} {id : PyVal} {op : Op} {cs} {s : Served} (hm : Means env.U op none)
    (hs : serve env luck st (.message id op.build cs) = some s) : s.state.heap = st.heap := by
  simp only [serve] at hs
  split at hs
  · split at hs
    · cases hs; rfl
    · cases hs
      cases hm <;> simp only [Op.build, call] <;> split <;> rfl
  · cases hs

/-- The RDN of the entry that an operation adds. -/
def AddsRdn (U : Unicode) (op : Op) (r : Dn.Rdn) : Prop := ∃ dn as parent, op = .add dn as ∧ Names U dn (r :: parent)

/-- A well-formed conversation of adding, deleting and reading: valid message ids, and RDNs spelled alike. -/
structure Good (U : Unicode) (c : List (Int × Op × List (PyVal × Obj))) : Prop where
  ids : ∀ x ∈ c, 0 < x.1 ∧ x.1 < 2 ^ 31
  ops : ∀ x ∈ c, ∃ r, Means U x.2.1 r
  alike : ∀ x ∈ c, ∀ y ∈ c, ∀ r r', AddsRdn U x.2.1 r → AddsRdn U y.2.1 r' → Dn.Rdn.eq U r r' = true → r = r'

theorem Good.spelled {c} (hg : Good U c) : Spelled U fun r => ∃ x ∈ c, AddsRdn U x.2.1 r := by
  refine ⟨?_, ?_⟩
  · rintro r ⟨x, _, dn, as, parent, _, s, _, hp⟩
    exact (Dn.Dn.parse_good hp).plain r List.mem_cons_self
  · rintro r r' ⟨x, hx, hr⟩ ⟨y, hy, hr'⟩ e
    exact hg.alike x hx y hy r r' hr hr' ((Dn.Rdn.eq_iff U r r').mpr e)

theorem conversation_sim {env : Env} (hR : Spelled env.U R) {st st' : State} {c} (hc : Conversation env st c st') :
    ∀ {D : Directory}, Sim env.U R root st.heap D → (∀ x ∈ c, 0 < x.1 ∧ x.1 < 2 ^ 31) → (∀ x ∈ c, ∃ r, Means env.U x.2.1 r) →
      (∀ x ∈ c, ∀ r, AddsRdn env.U x.2.1 r → R r) →
      ∃ D', Follows env.U root D c D' ∧ Sim env.U R root st'.heap D' := by
  induction hc with
  | nil st => intro D hs _ _ _; exact ⟨D, .nil D, hs⟩
  | @cons st luck i op s rest st' hserve hfit _ ih =>
    intro D hs hids hops hadds
    obtain ⟨r, hr⟩ := hops _ List.mem_cons_self
    have next := fun {D} (h : Sim env.U R root s.state.heap D) => ih h (fun x hx => hids x (List.mem_cons_of_mem _ hx))
      (fun x hx => hops x (List.mem_cons_of_mem _ hx)) (fun x hx => hadds x (List.mem_cons_of_mem _ hx))
    cases r with
    | none =>
      obtain ⟨D', h1, h2⟩ := next (D := D) (by rw [serve_read hr hserve]; exact hs)
      exact ⟨D', .read hr h1, h2⟩
    | some r =>
      have hu : Uses R r := by
        cases hr with
        | add hn hp => exact hadds _ List.mem_cons_self _ ⟨_, _, _, rfl, hn⟩
        | delete => exact True.intro
      obtain ⟨s', ops, e1, e2, e3, e4⟩ := serve_request hs hR hr hu (hids _ List.mem_cons_self) hfit
      rw [hserve] at e1; cases e1
      obtain ⟨D', h1, h2⟩ := next e4
      exact ⟨D', by rw [e2]; exact .request hr e3 h1, h2⟩

/-- Over any conversation that adds, deletes and reads, starting from a single entry, every reply is the one the finite map
requires, and in the end a DN is found exactly if the map has it, with the attributes that were given. -/
theorem conversation_partial (env : Env) (dn : Dn.Dn) (as : List (PyStr × List PyStr)) (bound : Option Nat)
    (c : List (Int × Op × List (PyVal × Obj))) (st' : State)
    (hc : Conversation env ⟨single ⟨dn, buildAttrs env.U as⟩, bound⟩ c st') (hg : Good env.U c) :
    ∃ D', Follows env.U (Spec.foldDn env.U dn) [(Spec.foldDn env.U dn, as)] c D' ∧ ∀ q : Dn.Dn,
      (D'.find (Spec.foldDn env.U q) = none → lookup env.U st'.heap 0 q = .error .noSuchObject) ∧
      ∀ as', D'.find (Spec.foldDn env.U q) = some as' → ∃ j n, lookup env.U st'.heap 0 q = .ok j ∧ st'.heap[j]? = some n ∧
        Dn.Dn.eq env.U n.entry.dn q = true ∧ n.entry.attrs = buildAttrs env.U as' := by
  have hR := hg.spelled
  obtain ⟨D', h1, h2⟩ := conversation_sim hR hc (C24.single_sim env.U dn as _) hg.ids hg.ops (fun x hx r hr => ⟨x, hx, hr⟩)
  refine ⟨D', h1, fun q => ⟨fun hnone => ?_, fun as' hsome => ?_⟩⟩
  · refine h2.lookup_not hR fun hh => ?_
    obtain ⟨as', hm⟩ := has_iff.mp hh
    rw [(C24.find_iff h2.nodup).mpr hm] at hnone
    cases hnone
  · obtain ⟨j, n, hb, hj, e1, e2⟩ := h2.complete _ _ ((C24.find_iff h2.nodup).mp hsome)
    exact ⟨j, n, (lookup_iff h2.inv (h2.named.distinct hR h2.inv) h2.pos q j).mpr ⟨hb, by rw [dnOf_eq hj, e1]⟩, hj,
      (Dn.Dn.eq_iff env.U _ _).mpr e1, e2⟩

/-- Every list of operations makes a conversation. -/
theorem conversation_exists {env : Env} {luck : Luck} (hf : ∀ e, Fit (luck.text e)) (l : List (Int × Op))
    (hl : ∀ x ∈ l, isRequest x.2.build = true) (st : State) :
    ∃ c st', c.map (fun x => (x.1, x.2.1)) = l ∧ Conversation env st c st' := by
  induction l generalizing st with
  | nil => exact ⟨[], st, rfl, .nil st⟩
  | cons x l ih =>
    have hx := hl x List.mem_cons_self
    obtain ⟨s, hs⟩ : ∃ s, serve env luck st (.message (.int x.1) x.2.build none) = some s := by
      simp only [serve, hx, if_true]
      split <;> exact ⟨_, rfl⟩
    obtain ⟨c, st', h1, h2⟩ := ih (fun y hy => hl y (List.mem_cons_of_mem _ hy)) s.state
    exact ⟨(x.1, x.2, s.sent) :: c, st', by simp [h1], .cons hs hf h2⟩

/-- Adding an entry and one below it, adding it again, deleting the inner one, a DN that is not there, the leaf, and the root. -/
def talk : List (Int × Op) := [
  (1, .add (ascii "ou=x,dc=a") [(ascii "ou", [ascii "x", ascii "y"]), (ascii "sn", [])]),
  (2, .add (ascii "cn=z,OU=X,dc=a") []),
  (3, .add (ascii "ou=x,dc=a") []),
  (4, .delete (ascii "ou=x,dc=a")),
  (5, .compare (ascii "ou=x,dc=a") (ascii "ou") (ascii "y")),
  (6, .delete (ascii "cn=q,dc=a")),
  (7, .delete (ascii "cn=z,ou=x,dc=a")),
  (8, .delete (ascii "dc=a"))]

theorem names_of {U : Unicode} {b : Bytes} {s : List Char} {d : Dn.Dn} (h : (Utf8.decode b).toOption = some s)
    (h' : (Dn.Dn.parse U s).toOption = some d) : Names U b d :=
  ⟨s, by cases e : Utf8.decode b with | error => simp [e, Except.toOption] at h | ok v => simp_all [Except.toOption],
    by cases e : Dn.Dn.parse U s with | error => simp [e, Except.toOption] at h' | ok v => simp_all [Except.toOption]⟩

/-- The RDN that an add request adds. -/
def rdnOf (x : Int × Op) : Option Dn.Rdn :=
  match x.2 with
  | .add dn _ => ((Utf8.decode dn).toOption.bind fun s => (Dn.Dn.parse asciiTables s).toOption).bind List.head?
  | _ => none

/-- The hypotheses of `conversation_partial` hold for it, and these are the codes sent: the delete request for an entry with
an entry below it is the one without an answer. -/
example : ∃ c st', Conversation C40.env ⟨single ⟨[[⟨['d','c'],['a']⟩]], []⟩, none⟩ c st' ∧ c.map (fun x => (x.1, x.2.1)) = talk ∧
    Good asciiTables c := by
  obtain ⟨c, st', h1, h2⟩ := conversation_exists (env := C40.env) (luck := C40.luck)
    (fun e => by simp [C40.luck, Fit]) talk (by decide +kernel) ⟨single ⟨[[⟨['d','c'],['a']⟩]], []⟩, none⟩
  refine ⟨c, st', h2, h1, ?_⟩
  have hmem : ∀ x ∈ c, (x.1, x.2.1) ∈ talk := fun x hx => h1 ▸ List.mem_map_of_mem (f := fun x => (x.1, x.2.1)) hx
  refine ⟨fun x hx => ?_, fun x hx => ?_, fun x hx y hy r r' hr hr' e => ?_⟩
  · have : ∀ y ∈ talk, 0 < y.1 ∧ y.1 < 2 ^ 31 := by decide +kernel
    exact this _ (hmem x hx)
  · have : ∀ y ∈ talk, ∃ r, Means asciiTables y.2 r := by
      intro y hy
      have names : ∀ {b : Bytes} {s : List Char} {d : Dn.Dn}, ((Utf8.decode b).toOption = some s ∧
          (Dn.Dn.parse asciiTables s).toOption = some d) → Names asciiTables b d := fun h => names_of h.1 h.2
      simp only [talk, List.mem_cons, List.not_mem_nil, or_false] at hy
      rcases hy with rfl | rfl | rfl | rfl | rfl | rfl | rfl | rfl
      · exact ⟨_, .add (rdn := [⟨['o','u'],['x']⟩]) (parent := [[⟨['d','c'],['a']⟩]])
          (names (s := "ou=x,dc=a".toList) (by decide +kernel)) ⟨by decide +kernel, by simp [SameName]; decide +kernel, by decide +kernel⟩⟩
      · exact ⟨_, .add (rdn := [⟨['c','n'],['z']⟩]) (parent := [[⟨['O','U'],['X']⟩], [⟨['d','c'],['a']⟩]])
          (names (s := "cn=z,OU=X,dc=a".toList) (by decide +kernel)) ⟨by decide +kernel, .nil, by decide +kernel⟩⟩
      · exact ⟨_, .add (rdn := [⟨['o','u'],['x']⟩]) (parent := [[⟨['d','c'],['a']⟩]])
          (names (s := "ou=x,dc=a".toList) (by decide +kernel)) ⟨by decide +kernel, .nil, by decide +kernel⟩⟩
      · exact ⟨_, .delete (d := [[⟨['o','u'],['x']⟩], [⟨['d','c'],['a']⟩]])
          (names (s := "ou=x,dc=a".toList) (by decide +kernel))⟩
      · exact ⟨_, .compare⟩
      · exact ⟨_, .delete (d := [[⟨['c','n'],['q']⟩], [⟨['d','c'],['a']⟩]])
          (names (s := "cn=q,dc=a".toList) (by decide +kernel))⟩
      · exact ⟨_, .delete (d := [[⟨['c','n'],['z']⟩], [⟨['o','u'],['x']⟩], [⟨['d','c'],['a']⟩]])
          (names (s := "cn=z,ou=x,dc=a".toList) (by decide +kernel))⟩
      · exact ⟨_, .delete (d := [[⟨['d','c'],['a']⟩]]) (names (s := "dc=a".toList) (by decide +kernel))⟩
    exact this _ (hmem x hx)
  · have key : ∀ {x : Int × Op × List (PyVal × Obj)} {r}, AddsRdn asciiTables x.2.1 r → rdnOf (x.1, x.2.1) = some r := by
      rintro ⟨i, op, sent⟩ r ⟨dn, as, parent, he, s, h1, h2⟩
      cases he
      simp [rdnOf, h1, h2, Except.toOption]
    have : ∀ y ∈ talk.filterMap rdnOf, ∀ z ∈ talk.filterMap rdnOf, Dn.Rdn.eq asciiTables y z = true → y = z := by decide +kernel
    exact this r (List.mem_filterMap.mpr ⟨_, hmem x hx, key hr⟩) r' (List.mem_filterMap.mpr ⟨_, hmem y hy, key hr'⟩) e

example : (serveAll C40.env ⟨single ⟨[[⟨['d','c'],['a']⟩]], []⟩, none⟩
      (talk.map fun x => (C40.luck, .message (.int x.1) x.2.build none))).2.map
        (fun m => (m.1, match m.2 with | .result _ _ c _ _ _ => some c | _ => none)) =
    [(.int 1, some (.int 0)), (.int 2, some (.int 0)), (.int 3, some (.int 68)), (.int 5, some (.int 6)), (.int 6, some (.int 32)),
     (.int 7, some (.int 0)), (.int 8, some (.int 64))] := by decide +kernel

end Verif.C68
