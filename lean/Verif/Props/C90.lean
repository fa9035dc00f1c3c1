import Verif.Lemmas.ExchangeUnique
import Verif.Lemmas.ServerSearch
import Verif.Props.C75
import Verif.Props.C77
import Verif.Props.C78
/-
C90  What programs add, delete and move through the library's client is what the server has.

`session_partial`: programs add and delete entries one after the other, each by an entry that it has, over any connections; what is
written goes over the network in any segments.  They are told what the finite map of C24 requires, and in the end the tree of the
server holds what the map holds.  `progress`: each such action comes to an end.  `moved_partial`: a leaf is then moved to a name that
is free.  Missing: the deletion of an entry that has entries below it is never answered (`Follows.nonLeaf` says so); RDNs must be
spelled in one way throughout; entries with entries below them, and later moves (C25, C77).  The entry of the program after a move is
`stale`; after a deletion that is refused it is `still_deleted`; and `reused_dict`.
-/
namespace Verif.C90
open Verif.Ldap Verif.Spec Verif.Spec.ClientTree Verif.Server Verif.Session Verif.ClientTree
open Verif.Tree (Sim Spelled lookup single buildAttrs dnOf)
open Verif.Ldif (Under ByteNames)

/-! ### The requests -/

/-- The attributes as octets. -/
def wire (g : Given) : Spec.Attrs := g.map fun p => (p.1.toBytes, p.2.map PyStr.toBytes)

theorem attributeObj_wire (g : Given) : g.map attributeObj = (wire g).map attrObj := by
  simp [wire, attributeObj, attrObj, seqObj, setObj, octet, Function.comp_def]

theorem take_perm {k : PyStr} {x : List PyStr} {g : Given} (hn : (g.map (·.1)).Nodup) (h : g.lookup k = some x) :
    ((k, x) :: g.filter fun p => p.1 ≠ k).Perm g := by
  induction g with
  | nil => cases h
  | cons p g ih =>
    obtain ⟨k', y⟩ := p
    rw [List.map_cons, List.nodup_cons] at hn
    by_cases hk : k = k'
    · subst hk
      rw [List.lookup_cons] at h
      simp at h
      subst h
      rw [List.filter_cons_of_neg (by simp), List.filter_eq_self.mpr fun q hq => ?_]
      simp only [ne_eq, decide_eq_true_eq]
      rintro rfl
      exact hn.1 (List.mem_map_of_mem (f := (·.1)) hq)
    · have hb : (k == k') = false := by simpa using hk
      rw [List.lookup_cons, hb] at h
      rw [List.filter_cons_of_pos (by simpa using fun h : k' = k => hk h.symm)]
      exact (List.Perm.swap _ _ _).trans (List.Perm.cons _ (ih hn.2 h))

theorem keys_nodup {g : Given} (h : Proper g) : (g.map (·.1)).Nodup := by
  rw [List.Nodup, List.pairwise_map]
  exact h.names.imp fun hne e => hne (by unfold SameName; rw [e])

/-- All attributes are sent. -/
theorem sent_perm {g : Given} (h : Proper g) : ∃ l, sortGiven (takeClasses g).2 = .ok l ∧ ((takeClasses g).1 ++ l).Perm g := by
  have hsub : ∀ p ∈ (takeClasses g).2, p ∈ g := by
    intro p hp
    unfold takeClasses at hp
    split at hp
    · exact (List.mem_filter.mp hp).1
    · exact hp
  have hs : sortGiven (takeClasses g).2 = .ok (sortItems (takeClasses g).2) := by
    unfold sortGiven
    rw [if_pos]
    rw [Bool.or_eq_true, List.all_eq_true, List.all_eq_true]
    rcases h.kind with h | h
    · left
      intro p hp
      obtain ⟨t, e⟩ := h p (hsub p hp)
      rw [e]
    · right
      intro p hp
      obtain ⟨t, e⟩ := h p (hsub p hp)
      rw [e]
  refine ⟨_, hs, ?_⟩
  refine (List.Perm.append_left _ (sortItems_perm _)).trans ?_
  unfold takeClasses
  split
  · rename_i v vs hl
    exact take_perm (keys_nodup h) hl
  · exact List.Perm.refl _

theorem lookup_given {k : PyStr} {x : List PyStr} {g : Given} (hn : (g.map (·.1)).Nodup) (hm : (k, x) ∈ g) : g.lookup k = some x := by
  induction g with
  | nil => cases hm
  | cons p g ih =>
    obtain ⟨k', y⟩ := p
    rw [List.map_cons, List.nodup_cons] at hn
    rcases List.mem_cons.mp hm with h | h
    · cases h; simp
    · have : (k == k') = false := by
        simp only [beq_eq_false_iff_ne, ne_eq]
        rintro rfl
        exact hn.1 (List.mem_map_of_mem (f := (·.1)) h)
      rw [List.lookup_cons, this]
      exact ih hn.2 h

theorem insertItem_sorted (x : PyStr × List PyStr) {l : Verif.Attrs}
    (h : l.Pairwise fun p q => p.1.toBytes.map UInt8.toNat ≤ q.1.toBytes.map UInt8.toNat) :
    (insertItem x l).Pairwise fun p q => p.1.toBytes.map UInt8.toNat ≤ q.1.toBytes.map UInt8.toNat := by
  induction l with
  | nil => simp [insertItem]
  | cons y l ih =>
    rw [List.pairwise_cons] at h
    simp only [insertItem]
    split
    · rename_i hle
      rw [Match.lexLe_iff] at hle
      refine List.pairwise_cons.mpr ⟨fun q hq => ?_, List.pairwise_cons.mpr h⟩
      rcases List.mem_cons.mp hq with rfl | hq
      · exact hle
      · exact Std.le_trans hle (h.1 q hq)
    · rename_i hle
      rw [Match.lexLe_iff] at hle
      refine List.pairwise_cons.mpr ⟨fun q hq => ?_, ih h.2⟩
      rcases List.mem_cons.mp ((insertItem_perm x l).mem_iff.mp hq) with rfl | hq
      · exact (Std.le_total (a := q.1.toBytes.map UInt8.toNat) (b := y.1.toBytes.map UInt8.toNat)).resolve_left hle
      · exact h.1 q hq

/-- The attributes are sent in this order: the object classes, if there are any, and then the others, by their names. -/
theorem request_order {U : Unicode} {s : Syntax.St} {rdn : Str} {g : Given} {dn : PyVal} {tag : UInt8} {attrs : Obj} {new : Dn.Dn}
    (hg : Proper g) (h : (addChild U s rdn g).1 = .ok (.addRequest tag dn attrs, new)) :
    ∃ c l, attrs = seqObj ((wire (c ++ l)).map attrObj) ∧ (c ++ l).Perm g ∧
      (∀ p ∈ c, p.1 = .text "objectClass".toList ∧ p.2 ≠ []) ∧ (∀ p ∈ l, p.1 = .text "objectClass".toList → p.2 = []) ∧
      l.Pairwise fun p q => p.1.toBytes.map UInt8.toNat ≤ q.1.toBytes.map UInt8.toNat := by
  obtain ⟨l, hl, hp⟩ := sent_perm hg
  refine ⟨(takeClasses g).1, l, ?_, hp, ?_, ?_, ?_⟩
  · unfold addChild at h
    split at h
    · cases h
    · rw [hl] at h
      simp only at h
      split at h
      · cases h
      · simp only [attributeObj_wire] at h
        cases h
        rfl
  · intro p hm
    unfold takeClasses at hm
    split at hm
    · rw [List.mem_singleton.mp hm]; exact ⟨rfl, nofun⟩
    · cases hm
  · intro p hm hk
    have hm : p ∈ (takeClasses g).2 := by
      unfold sortGiven at hl
      split at hl
      · cases hl; exact (sortItems_perm _).mem_iff.mp hm
      · cases hl
    unfold takeClasses at hm
    split at hm
    · have := (List.mem_filter.mp hm).2
      exact absurd hk (of_decide_eq_true this)
    · rename_i hne
      obtain ⟨k, vs⟩ := p
      cases vs with
      | nil => rfl
      | cons v vs =>
        have hk : k = classKey := hk
        subst hk
        exact absurd (lookup_given (keys_nodup hg) hm) (hne v vs)
  · unfold sortGiven at hl
    split at hl
    · cases hl
      generalize (takeClasses g).2 = g'
      clear hp
      induction g' with
      | nil => exact .nil
      | cons x g' ih => exact insertItem_sorted x ih
    · cases hl

/-- The same values, by names that are octets. -/
structure Conveys (as' as : Given) : Prop where
  values : ∀ a b, Gives as' a b ↔ Gives as a b
  octets : ByteNames as'

theorem stored_gives {g h : Given} (hp : g.Perm h) : Conveys (C68.stored (wire g)) h := by
  refine ⟨fun a b => ?_, ?_⟩
  · unfold Gives C68.stored wire
    simp only [List.map_map]
    constructor
    · rintro ⟨p, hp', h1, h2⟩
      obtain ⟨x, hx, rfl⟩ := List.mem_map.mp hp'
      refine ⟨x, hp.mem_iff.mp hx, h1, ?_⟩
      simpa [PyStr.toBytes] using h2
    · rintro ⟨x, hx, h1, h2⟩
      refine ⟨_, List.mem_map_of_mem (hp.mem_iff.mpr hx), h1, ?_⟩
      simpa [PyStr.toBytes] using h2
  · intro p hp
    obtain ⟨kv, _, rfl⟩ := List.mem_map.mp hp
    exact ⟨_, rfl⟩

theorem wire_proper {g h : Given} (hp : g.Perm h) (hh : Proper h) : C68.Proper (wire g) := by
  refine ⟨fun kv hkv => ?_, ?_, fun kv hkv => ?_⟩
  · obtain ⟨p, hp', rfl⟩ := List.mem_map.mp hkv
    exact hh.ascii p (hp.mem_iff.mp hp')
  · unfold wire
    rw [List.pairwise_map]
    refine (hp.pairwise_iff (fun {x y} h h' => h ?_)).mpr hh.names
    unfold SameName at h' ⊢
    exact h'.symm
  · obtain ⟨p, hp', rfl⟩ := List.mem_map.mp hkv
    exact hh.values p (hp.mem_iff.mp hp')

theorem rdn_plain {U : Unicode} {t : Str} {r : Dn.Rdn} (h : Dn.Rdn.parse U t = .ok r) : ∀ a ∈ r, Dn.Ava.Plain a := by
  intro a ha
  obtain ⟨t, _, ht⟩ := Dn.mapPy_mem h a ha
  exact Dn.Ava.read_plain ht

theorem names_textual {U : Unicode} {d : Dn.Dn} (h : Textual d) : C68.Names U (Utf8.encode d.text) d :=
  ⟨d.text, Utf8.decode_encode _, C75.parse_text h⟩

theorem textual_cons {U : Unicode} {t : Str} {r : Dn.Rdn} (h : Dn.Rdn.parse U t = .ok r) (hr : r ≠ []) {d : Dn.Dn} (hd : Textual d) :
    Textual (r :: d) := by
  refine ⟨fun x hx => ?_, fun x hx => ?_⟩ <;> rcases List.mem_cons.mp hx with rfl | hx
  · exact rdn_plain h
  · exact hd.types x hx
  · exact hr
  · exact hd.rdns x hx

theorem add_request {U : Unicode} {s : Syntax.St} {rdn : Str} {r : Dn.Rdn} {g : Given} (hs : s.deleted = false) (ht : Textual s.dn)
    (hr : Dn.Rdn.parse U rdn = .ok r) (hne : r ≠ []) (hg : Proper g) :
    ∃ as, (addChild U s rdn g).1 = .ok ((Op.add (Utf8.encode (Dn.Dn.text (r :: s.dn))) as).build, r :: s.dn) ∧
      C68.Means U (.add (Utf8.encode (Dn.Dn.text (r :: s.dn))) as) (some (.add s.dn r (C68.stored as))) ∧ Conveys (C68.stored as) g := by
  obtain ⟨l, hl, hp⟩ := sent_perm hg
  refine ⟨wire ((takeClasses g).1 ++ l), ?_, .add (names_textual (textual_cons hr hne ht)) (wire_proper hp hg), stored_gives hp⟩
  unfold addChild
  simp only [hs, hl, hr, attributeObj_wire]
  rfl

theorem delete_request {U : Unicode} {s : Syntax.St} (hs : s.deleted = false) (ht : Textual s.dn) :
    deleteRequest s = .ok (Op.delete (Utf8.encode s.dn.text)).build ∧ C68.Means U (.delete (Utf8.encode s.dn.text)) (some (.delete s.dn)) := by
  refine ⟨?_, .delete (names_textual ht)⟩
  simp [deleteRequest, hs, Op.build]

/-! ### Directories with the same values -/

/-- The same names, each with the same values. -/
def Alike (D' D : Directory) : Prop := Each (fun x y => x.1 = y.1 ∧ Conveys x.2 y.2) D' D

variable {D' D : Directory}

theorem Alike.names (h : Alike D' D) : D'.map (·.1) = D.map (·.1) := by
  induction h with
  | nil => rfl
  | cons h _ ih => rw [List.map_cons, List.map_cons, ih, h.1]

theorem has_map (D : Directory) (x : Name) : D.has x = (D.map (·.1)).any (· == x) := by
  simp [Directory.has, List.any_map, Function.comp_def]

theorem hasChild_map (D : Directory) (x : Name) : D.hasChild x = (D.map (·.1)).any fun y => y != [] && y.tail == x := by
  simp [Directory.hasChild, List.any_map, Function.comp_def]

theorem Alike.has (h : Alike D' D) (x : Name) : D'.has x = D.has x := by rw [has_map, has_map, h.names]

theorem Alike.hasChild (h : Alike D' D) (x : Name) : D'.hasChild x = D.hasChild x := by rw [hasChild_map, hasChild_map, h.names]

theorem Alike.filter (h : Alike D' D) (f : Name → Bool) : Alike (D'.filter fun p => f p.1) (D.filter fun p => f p.1) := by
  induction h with
  | nil => exact .nil
  | @cons a b as bs h _ ih =>
    cases hf : f b.1 with
    | true =>
      rw [List.filter_cons_of_pos (by rw [h.1]; exact hf), List.filter_cons_of_pos (by exact hf)]
      exact .cons h ih
    | false =>
      rw [List.filter_cons_of_neg (by rw [h.1, hf]; simp), List.filter_cons_of_neg (by rw [hf]; simp)]
      exact ih

theorem Alike.snoc (h : Alike D' D) {x : Name} {as' as : Given} (hc : Conveys as' as) : Alike (D' ++ [(x, as')]) (D ++ [(x, as)]) := by
  induction h with
  | nil => exact .cons ⟨rfl, hc⟩ .nil
  | cons h _ ih => exact .cons h ih

theorem Alike.add {U : Unicode} {root : Name} (h : Alike D' D) {as' as : Given} (hc : Conveys as' as) (p : Dn.Dn) (r : Dn.Rdn) :
    (D'.step U root (.add p r as')).2 = (D.step U root (.add p r as)).2 ∧
      Alike (D'.step U root (.add p r as')).1 (D.step U root (.add p r as)).1 := by
  simp only [Directory.step, h.has]
  split
  · exact ⟨rfl, h⟩
  · split
    · exact ⟨rfl, h⟩
    · exact ⟨rfl, h.snoc hc⟩

theorem Alike.delete {U : Unicode} {root : Name} (h : Alike D' D) (d : Dn.Dn) :
    (D'.step U root (.delete d)).2 = (D.step U root (.delete d)).2 ∧ Alike (D'.step U root (.delete d)).1 (D.step U root (.delete d)).1 := by
  simp only [Directory.step, h.has, h.hasChild]
  split
  · exact ⟨rfl, h⟩
  · split
    · exact ⟨rfl, h⟩
    · split
      · exact ⟨rfl, h⟩
      · exact ⟨rfl, h.filter fun x => x != foldDn U d⟩

theorem Alike.find (h : Alike D' D) (x : Name) :
    (D.find x = none → D'.find x = none) ∧ ∀ as, D.find x = some as → ∃ as', D'.find x = some as' ∧ Conveys as' as := by
  induction h with
  | nil => exact ⟨fun _ => rfl, nofun⟩
  | @cons a b as bs h _ ih =>
    simp only [Directory.find, List.find?_cons, h.1] at ih ⊢
    split
    · simp only [Option.map_some, reduceCtorEq, false_implies, Option.some.injEq, true_and]
      rintro as rfl
      exact ⟨_, rfl, h.2⟩
    · exact ih

theorem conveys_refl {as : Given} (h : ByteNames as) : Conveys as as := ⟨fun _ _ => Iff.rfl, h⟩

/-! ### One thing after the other -/

theorem no_change {U : Unicode} {root : Name} {D : Directory} {r : Request} {e : PyErr} (h : (D.step U root r).2 = some e) :
    (D.step U root r).1 = D := by
  revert h
  cases r <;> simp only [Directory.step] <;> repeat' split
  all_goals simp

theorem resultOf {e : PyErr} {c : Int} (h : C68.Code e c) : ResultOf e c := by
  cases h
  · exact .noSuchObject
  · exact .alreadyExists
  · exact .cannotRemoveRoot

theorem code_ne {e : PyErr} {c : Int} (h : C68.Code e c) : c ≠ 0 := by
  cases h <;> decide

/-- One action: what the program is told, and that the directory stays in step. -/
theorem did {env : Env} {R : Dn.Rdn → Prop} {root : Name} {st st' : State} {a : Action} {t : Told} (h : Did env st a t st')
    (hs : Sim env.U R root st.heap D') (hA : Alike D' D) (hR : Spelled env.U R) (ha : Sensible env.U a)
    (hu : ∀ s rdn g r, a = .add s rdn g → Dn.Rdn.parse env.U rdn = .ok r → R r) :
    ∃ D₁' D₁, Sim env.U R root st'.heap D₁' ∧ Alike D₁' D₁ ∧ ∀ l D₂, Follows env.U root D₁ l D₂ → Follows env.U root D ((a, t) :: l) D₂ := by
  cases a with
  | add s rdn g =>
    obtain ⟨ht, ⟨r, hr, hne⟩, hg⟩ := ha
    by_cases hd : s.deleted = true
    · have hreq : (Action.add s rdn g).request env.U = .error .deleted := by simp [Action.request, addChild, hd, Except.map]
      cases h with
      | refused h => rw [hreq] at h; cases h; exact ⟨_, _, hs, hA, fun l D₂ hf => .addDeleted hd hf⟩
      | answered h => rw [hreq] at h; cases h
      | unanswered h => rw [hreq] at h; cases h
    have hd : s.deleted = false := by simpa using hd
    obtain ⟨as, h1, h2, h3⟩ := add_request hd ht hr hne hg
    have hreq : (Action.add s rdn g).request env.U = .ok (Op.add (Utf8.encode (Dn.Dn.text (r :: s.dn))) as).build := by
      simp [Action.request, h1, Except.map]
    obtain ⟨e1, e2⟩ := hA.add (U := env.U) (root := root) h3 s.dn r
    have key : ∀ {luck : Luck} {c w}, Ready luck c w → ∃ x ops,
        serve env luck st (.message (.int w.nextId) (Op.add (Utf8.encode (Dn.Dn.text (r :: s.dn))) as).build none) = some x ∧ _ ∧ _ ∧ _ :=
      fun {luck c w} hready => C68.serve_request hs hR h2 (hu s rdn g r rfl hr) hready.id hready.texts (luck := luck)
    cases h with
    | refused h => rw [hreq] at h; cases h
    | @unanswered r' st' luck app fuel c w h hready hx =>
      rw [hreq] at h; cases h
      have := unanswered_iff (op := (.add (Utf8.encode (Dn.Dn.text (r :: s.dn))) as)) hready.connected hready.free rfl trivial hx
      obtain ⟨x, ops, k1, k2, k3, k4⟩ := key hready
      rw [show received (Op.add (Utf8.encode (Dn.Dn.text (r :: s.dn))) as) = (Op.add (Utf8.encode (Dn.Dn.text (r :: s.dn))) as).build from rfl,
        k1] at this
      cases this
      generalize (D'.step env.U root (.add s.dn r (C68.stored as))).2 = q at k3
      cases k3 <;> simp at k2
    | @answered r' m st' luck app fuel c w h hready hx =>
      rw [hreq] at h; cases h
      obtain ⟨x, f1, f2, f3, f4⟩ := exchanged_iff (op := (.add (Utf8.encode (Dn.Dn.text (r :: s.dn))) as)) hready.connected (by have := hready.id; omega) hready.free rfl trivial hx
      obtain ⟨x', ops, k1, k2, k3, k4⟩ := key hready
      rw [show received (Op.add (Utf8.encode (Dn.Dn.text (r :: s.dn))) as) = (Op.add (Utf8.encode (Dn.Dn.text (r :: s.dn))) as).build from rfl,
        k1] at f1
      cases f1
      subst f2
      generalize hq : (D'.step env.U root (.add s.dn r (C68.stored as))).2 = q at k3
      cases k3 with
      | added =>
        have := f4 (.result .add 0 [] []) trivial rfl (by rw [k2]; rfl)
        cases this
        refine ⟨_, _, k4, e2, fun l D₂ hf => ?_⟩
        have hans : (Action.add s rdn g).answer env.U (received (.result .add 0 [] [])) = .entry ⟨r :: s.dn, [], [], [], false, false⟩ := by
          simp only [Action.answer, h1]
          rfl
        rw [hans]
        exact .added hd hr (by rw [← e1, hq]) hf
      | @notAdded _ _ e cd m hc =>
        have := f4 (.result .add cd [] m) trivial rfl (by rw [k2]; rfl)
        cases this
        have hD := no_change (e := e) (by rw [← e1, hq] : (D.step env.U root (.add s.dn r g)).2 = some e)
        refine ⟨_, _, k4, e2, fun l D₂ hf => ?_⟩
        have hans : (Action.add s rdn g).answer env.U (received (.result .add cd [] m)) = .failed (.ldap cd) := by
          simp [Action.answer, h1, received, Op.build, ResultKind.cls, added, code_ne hc]
        rw [hans]
        rw [hD] at hf
        exact .notAdded hd hr (by rw [← e1, hq]) (resultOf hc) hf
  | delete s =>
    by_cases hd : s.deleted = true
    · have hreq : (Action.delete s).request env.U = .error .deleted := by simp [Action.request, deleteRequest, hd]
      cases h with
      | refused h => rw [hreq] at h; cases h; exact ⟨_, _, hs, hA, fun l D₂ hf => .deleteDeleted hd hf⟩
      | answered h => rw [hreq] at h; cases h
      | unanswered h => rw [hreq] at h; cases h
    have hd : s.deleted = false := by simpa using hd
    obtain ⟨h1, h2⟩ := delete_request (U := env.U) hd ha
    have hreq : (Action.delete s).request env.U = .ok (Op.delete (Utf8.encode s.dn.text)).build := h1
    obtain ⟨e1, e2⟩ := hA.delete (U := env.U) (root := root) s.dn
    cases h with
    | refused h => rw [hreq] at h; cases h
    | @unanswered r' st' luck app fuel c w h hready hx =>
      rw [hreq] at h; cases h
      have := unanswered_iff (op := (.delete (Utf8.encode s.dn.text))) hready.connected hready.free rfl trivial hx
      obtain ⟨x, ops, k1, k2, k3, k4⟩ := C68.serve_request hs hR h2 trivial hready.id hready.texts (luck := luck)
      rw [show received (Op.delete (Utf8.encode s.dn.text)) = (Op.delete (Utf8.encode s.dn.text)).build from rfl, k1] at this
      cases this
      generalize hq : (D'.step env.U root (.delete s.dn)).2 = q at k3
      cases k3 with
      | deleted => simp at k2
      | notDeleted => simp at k2
      | nonLeaf =>
        have hD := no_change (by rw [← e1, hq] : (D.step env.U root (.delete s.dn)).2 = some .notAllowedOnNonLeaf)
        refine ⟨_, _, k4, e2, fun l D₂ hf => ?_⟩
        rw [hD] at hf
        exact .nonLeaf hd (by rw [← e1, hq]) hf
    | @answered r' m st' luck app fuel c w h hready hx =>
      rw [hreq] at h; cases h
      obtain ⟨x, f1, f2, f3, f4⟩ := exchanged_iff (op := (.delete (Utf8.encode s.dn.text))) hready.connected (by have := hready.id; omega) hready.free rfl trivial hx
      obtain ⟨x', ops, k1, k2, k3, k4⟩ := C68.serve_request hs hR h2 trivial hready.id hready.texts (luck := luck)
      rw [show received (Op.delete (Utf8.encode s.dn.text)) = (Op.delete (Utf8.encode s.dn.text)).build from rfl, k1] at f1
      cases f1
      subst f2
      generalize hq : (D'.step env.U root (.delete s.dn)).2 = q at k3
      cases k3 with
      | nonLeaf => exact absurd k2 f3
      | deleted =>
        have := f4 (.result .delete 0 [] []) trivial rfl (by rw [k2]; rfl)
        cases this
        refine ⟨_, _, k4, e2, fun l D₂ hf => ?_⟩
        have hans : (Action.delete s).answer env.U (received (.result .delete 0 [] [])) = .done := rfl
        rw [hans]
        exact .deleted hd (by rw [← e1, hq]) hf
      | @notDeleted _ e cd m hc =>
        have := f4 (.result .delete cd [] m) trivial rfl (by rw [k2]; rfl)
        cases this
        have hD := no_change (e := e) (by rw [← e1, hq] : (D.step env.U root (.delete s.dn)).2 = some e)
        refine ⟨_, _, k4, e2, fun l D₂ hf => ?_⟩
        have hans : (Action.delete s).answer env.U (received (.result .delete cd [] m)) = .failed (.ldap cd) := by
          simp [Action.answer, received, Op.build, ResultKind.cls, deleteDone, code_ne hc]
        rw [hans]
        rw [hD] at hf
        exact .notDeleted hd (by rw [← e1, hq]) (resultOf hc) hf

/-- The RDN that an action adds. -/
def AddsRdn (U : Unicode) (a : Action) (r : Dn.Rdn) : Prop := ∃ s rdn g, a = .add s rdn g ∧ Dn.Rdn.parse U rdn = .ok r

/-- Names can be written and read, and RDNs are spelled alike. -/
structure Good (U : Unicode) (l : List (Action × Told)) : Prop where
  sensible : ∀ x ∈ l, Sensible U x.1
  alike : ∀ x ∈ l, ∀ y ∈ l, ∀ r r', AddsRdn U x.1 r → AddsRdn U y.1 r' → Dn.Rdn.eq U r r' = true → r = r'

theorem Good.spelled {U : Unicode} {l : List (Action × Told)} (hg : Good U l) : Spelled U fun r => ∃ x ∈ l, AddsRdn U x.1 r := by
  refine ⟨?_, ?_⟩
  · rintro r ⟨x, _, s, rdn, g, _, hp⟩
    exact rdn_plain hp
  · rintro r r' ⟨x, hx, hr⟩ ⟨y, hy, hr'⟩ e
    exact hg.alike x hx y hy r r' hr hr' ((Dn.Rdn.eq_iff U r r').mpr e)

theorem talk_sim {env : Env} {R : Dn.Rdn → Prop} {root : Name} (hR : Spelled env.U R) {st st' : State} {l} (hc : Talk env st l st') :
    ∀ {D' D : Directory}, Sim env.U R root st.heap D' → Alike D' D → (∀ x ∈ l, Sensible env.U x.1) →
      (∀ x ∈ l, ∀ r, AddsRdn env.U x.1 r → R r) →
      ∃ D₂' D₂, Follows env.U root D l D₂ ∧ Sim env.U R root st'.heap D₂' ∧ Alike D₂' D₂ := by
  induction hc with
  | nil st => intro D' D hs hA _ _; exact ⟨D', D, .nil D, hs, hA⟩
  | quiet hq _ ih => intro D' D hs hA h1 h2; exact ih (by rw [hq]; exact hs) hA h1 h2
  | @cons st a t st₁ l st' hd _ ih =>
    intro D' D hs hA h1 h2
    obtain ⟨D₁', D₁, k1, k2, k3⟩ := did hd hs hA hR (h1 _ List.mem_cons_self)
      (fun s rdn g r he hr => h2 _ List.mem_cons_self r ⟨s, rdn, g, he, hr⟩)
    obtain ⟨D₂', D₂, j1, j2, j3⟩ := ih k1 k2 (fun x hx => h1 x (List.mem_cons_of_mem _ hx)) (fun x hx => h2 x (List.mem_cons_of_mem _ hx))
    exact ⟨D₂', D₂, k3 _ _ j1, j2, j3⟩

/-- Whatever programs add and delete through the library's client, starting from a single entry: they are told what the finite map
requires, and in the end the server finds a DN exactly if the map has it, and there the values that were given. -/
theorem session_partial (env : Env) (dn : Dn.Dn) (as : Given) (bound : Option Nat) (has : ByteNames as) (l : List (Action × Told))
    (st' : State) (hc : Talk env ⟨single ⟨dn, buildAttrs env.U as⟩, bound⟩ l st') (hg : Good env.U l) :
    ∃ D', Follows env.U (foldDn env.U dn) [(foldDn env.U dn, as)] l D' ∧ ∀ q : Dn.Dn,
      (D'.find (foldDn env.U q) = none → lookup env.U st'.heap 0 q = .error .noSuchObject) ∧
      ∀ g, D'.find (foldDn env.U q) = some g → ∃ j n, lookup env.U st'.heap 0 q = .ok j ∧ st'.heap[j]? = some n ∧
        Dn.Dn.eq env.U n.entry.dn q = true ∧ ∀ a b, HasValue n.entry a b ↔ Gives g a b := by
  have hR := hg.spelled
  obtain ⟨D', D, h1, h2, h3⟩ := talk_sim hR hc (C24.single_sim env.U dn as _) (.cons ⟨rfl, conveys_refl has⟩ .nil) hg.sensible
    (fun x hx r hr => ⟨x, hx, hr⟩)
  refine ⟨D, h1, fun q => ⟨fun hnone => ?_, fun g hsome => ?_⟩⟩
  · refine h2.lookup_not hR fun hh => ?_
    obtain ⟨as', hm⟩ := Tree.has_iff.mp hh
    have := (h3.find _).1 hnone
    rw [(C24.find_iff h2.nodup).mpr hm] at this
    cases this
  · obtain ⟨g', e, hv⟩ := (h3.find _).2 g hsome
    obtain ⟨j, n, hb, hj, e1, e2⟩ := h2.complete _ _ ((C24.find_iff h2.nodup).mp e)
    refine ⟨j, n, (Tree.lookup_iff h2.inv (h2.named.distinct hR h2.inv) h2.pos q j).mpr ⟨hb, by rw [Tree.dnOf_eq hj, e1]⟩, hj,
      (Dn.Dn.eq_iff env.U _ _).mpr e1, fun a b => ?_⟩
    obtain ⟨_, _, _, f⟩ := Ldif.buildAttrs_facts (U := env.U) hv.octets
    rw [show n.entry = ⟨n.entry.dn, n.entry.attrs⟩ from rfl, Ldif.hasValue_iff, e2, ← hv.values]
    simp only [f]
    constructor
    · rintro ⟨v, ⟨p, hp, hn, hv⟩, rfl⟩
      exact ⟨p, hp, hn, List.mem_map_of_mem hv⟩
    · rintro ⟨p, hp, hn, hb⟩
      obtain ⟨v, hv, rfl⟩ := List.mem_map.mp hb
      exact ⟨v, ⟨p, hp, hn, hv⟩, rfl⟩

/-! ### There is an answer -/

/-- Messages that are sent can be encoded. -/
theorem sent_encodes {env : Env} {luck : Luck} {st : State} {i : PyVal} {op : Op} {s : Served}
    (hop : (∃ dn as, op = .add dn as) ∨ (∃ dn, op = .delete dn) ∨ ∃ dn n d p, op = .modifyDN dn n d p)
    (h : serve env luck st (.message i op.build none) = some s) : ∀ x ∈ s.sent, encodes x.1 x.2 = true := by
  have fin : ∀ {r : Obj} {x : PyVal × Obj}, x ∈ final i r → encodes x.1 x.2 = true := by
    intro r x hx
    unfold final at hx
    split at hx
    · rename_i he; rw [List.mem_singleton.mp hx]; exact he
    · cases hx
  have hnone : (call env luck st i op.build none).sent = [] := by
    rcases hop with ⟨dn, as, rfl⟩ | ⟨dn, rfl⟩ | ⟨dn, n, d, p, rfl⟩ <;> simp only [Op.build, call]
    · unfold onHeap; split <;> rfl
    · unfold onHeap; split <;> rfl
    · split <;> rfl
  intro x hx
  simp only [serve] at h
  split at h
  · split at h
    · cases h; cases hx
    · cases h
      simp only [hnone, List.map_nil, List.nil_append] at hx
      split at hx
      · cases hx
      · exact fin hx
      · exact fin hx
  · cases h

/-- Every sensible action whose request can be encoded comes to an end, or is one for which the server has no answer. -/
theorem progress {env : Env} {R : Dn.Rdn → Prop} {root : Name} {st : State} {D' : Directory} {a : Action}
    (hs : Sim env.U R root st.heap D') (hR : Spelled env.U R) (ha : Sensible env.U a) (hu : ∀ r, AddsRdn env.U a r → R r)
    {luck : Luck} (app : Client.App) (fuel : Nat) {c : Nat} {w : Client.World} (hw : Ready luck c w)
    (he : ∀ r, a.request env.U = .ok r → encodes (.int w.nextId) r = true) : ∃ t st', Did env st a t st' := by
  have go : ∀ (op : Op) (q : Request), a.request env.U = .ok op.build → op.WF → received op = op.build → Client.needsAnswer op.build = some true →
      ((∃ dn as, op = .add dn as) ∨ (∃ dn, op = .delete dn) ∨ ∃ dn n d p, op = .modifyDN dn n d p) →
      C68.Means env.U op (some q) → Tree.Uses R q → ∃ t st', Did env st a t st' := by
    intro op q hreq hwf hrec hna hop hm huse
    obtain ⟨s, ops, k1, k2, k3, k4⟩ := C68.serve_request hs hR hm huse hw.id hw.texts (luck := luck)
    have henc := sent_encodes hop k1
    obtain ⟨out, hout⟩ : ∃ out, toWire (.message (.int w.nextId) op.build none) = .ok out := by
      have := he _ hreq
      unfold encodes at this
      cases hx : toWire (.message (.int w.nextId) op.build none) with
      | error e => rw [hx] at this; cases this
      | ok b => exact ⟨b, rfl⟩
    have hx : Client.call app fuel w (.send c op.build none) = Client.sendNew w c op.build none false false .plain := by
      cases fuel <;> simp only [Client.call]
    have hid : w.nextId ≠ 0 := by have := hw.id; omega
    have one : ∀ r : Op, r.WF → Client.isResponse (received r) = true → ops = [r] → ∃ t st', Did env st a t st' := by
      intro r hr hresp ho
      rw [ho] at k2
      exact ⟨_, _, .answered hreq hw (exchange_wire env luck st app fuel c w hw.connected hid hw.free _ .plain nofun op r hwf hx hna hout s
        (by rw [hrec]; exact k1) k2 hr hresp (henc (.int w.nextId, r.build) (by rw [k2]; simp)))⟩
    generalize (D'.step env.U root q).2 = x at k3
    cases k3 with
    | added => exact one _ (by exact True.intro) rfl rfl
    | notAdded => exact one _ (by exact True.intro) rfl rfl
    | deleted => exact one _ (by exact True.intro) rfl rfl
    | notDeleted => exact one _ (by exact True.intro) rfl rfl
    | nonLeaf =>
      refine ⟨_, _, .unanswered hreq hw (app := app) (fuel := fuel) (st' := s.state) (unanswered hw.connected hw.free hna hwf hout ?_)⟩
      rw [hrec, k1]
      cases s
      simp only [List.map_nil] at k2
      rw [k2]
  cases a with
  | add s rdn g =>
    obtain ⟨ht, ⟨r, hr, hne⟩, hg⟩ := ha
    by_cases hd : s.deleted = true
    · exact ⟨_, _, .refused (e := .deleted) (by simp [Action.request, addChild, hd, Except.map])⟩
    have hd : s.deleted = false := by simpa using hd
    obtain ⟨as, h1, h2, h3⟩ := add_request hd ht hr hne hg
    exact go _ _ (by simp [Action.request, h1, Except.map]) (by exact True.intro) rfl rfl (.inl ⟨_, _, rfl⟩) h2 (hu r ⟨s, rdn, g, rfl, hr⟩)
  | delete s =>
    by_cases hd : s.deleted = true
    · exact ⟨_, _, .refused (e := .deleted) (by simp [Action.request, deleteRequest, hd])⟩
    have hd : s.deleted = false := by simpa using hd
    obtain ⟨h1, h2⟩ := delete_request (U := env.U) hd ha
    exact go _ _ h1 (by exact True.intro) rfl rfl (.inr (.inl ⟨_, rfl⟩)) h2 (by exact True.intro)

/-- Sensible actions, one after the other. -/
theorem talk_exists {env : Env} {luck : Luck} (app : Client.App) (fuel : Nat) {c : Nat} {w : Client.World} (hw : Ready luck c w)
    {R : Dn.Rdn → Prop} {root : Name} (hR : Spelled env.U R) (acts : List Action) :
    ∀ {st : State} {D' D : Directory}, Sim env.U R root st.heap D' → Alike D' D → (∀ a ∈ acts, Sensible env.U a) →
      (∀ a ∈ acts, ∀ r, AddsRdn env.U a r → R r) →
      (∀ a ∈ acts, ∀ r, a.request env.U = .ok r → encodes (.int w.nextId) r = true) →
      ∃ l st', l.map (·.1) = acts ∧ Talk env st l st' := by
  induction acts with
  | nil => intro st _ _ _ _ _ _ _; exact ⟨[], st, rfl, .nil st⟩
  | cons a acts ih =>
    intro st D' D hs hA h1 h2 h3
    obtain ⟨t, st', hd⟩ := progress hs hR (h1 a List.mem_cons_self) (h2 a List.mem_cons_self) app fuel hw (h3 a List.mem_cons_self)
    obtain ⟨D₁', D₁, k1, k2, _⟩ := did hd hs hA hR (h1 a List.mem_cons_self)
      (fun s rdn g r he hr => h2 a List.mem_cons_self r ⟨s, rdn, g, he, hr⟩)
    obtain ⟨l, st'', j1, j2⟩ := ih k1 k2 (fun x hx => h1 x (List.mem_cons_of_mem _ hx)) (fun x hx => h2 x (List.mem_cons_of_mem _ hx))
      (fun x hx => h3 x (List.mem_cons_of_mem _ hx))
    exact ⟨(a, t) :: l, st'', by simp [j1], .cons hd j2⟩

/-! ### Moving -/

/-- The request that `move` sends. -/
def moveOp (d : Dn.Dn) (r : Dn.Rdn) (p : Dn.Dn) : Op :=
  .modifyDN (Utf8.encode (Dn.Dn.text d)) (Utf8.encode (Dn.Rdn.text r)) true (some (Utf8.encode (Dn.Dn.text p)))

theorem move_request {U : Unicode} {s : Syntax.St} {t : Str} {r : Dn.Rdn} {p : Dn.Dn} (hd : s.deleted = false)
    (ht : Dn.Dn.parse U t = .ok (r :: p)) : move U s t = .ok ((moveOp s.dn r p).build, r :: p) := by
  simp [move, hd, ht, moveOp, Op.build, optVal, boolVal]

theorem move_asks {U : Unicode} {d p : Dn.Dn} {r : Dn.Rdn} (hd : Textual d) (hn : Textual (r :: p)) :
    C77.Asks U (Utf8.encode (Dn.Dn.text d)) (Utf8.encode (Dn.Rdn.text r)) (some (Utf8.encode (Dn.Dn.text p))) d r p :=
  ⟨names_textual hd, ⟨_, Utf8.decode_encode _, Dn.Rdn.parse_text U r (hn.types r List.mem_cons_self)⟩,
    .given (names_textual ⟨fun x hx => hn.types x (List.mem_cons_of_mem _ hx), fun x hx => hn.rdns x (List.mem_cons_of_mem _ hx)⟩)⟩

/-- TRUE is received as 255, which the server takes for true. -/
theorem serve_moved (env : Env) (luck : Luck) (st : State) (i : Int) (d : Dn.Dn) (r : Dn.Rdn) (p : Dn.Dn) :
    serve env luck st (.message (.int i) (received (moveOp d r p)) none) =
      serve env luck st (C77.ask i (Utf8.encode (Dn.Dn.text d)) (Utf8.encode (Dn.Rdn.text r)) true (some (Utf8.encode (Dn.Dn.text p)))) := by
  simp [C77.ask, moveOp, received, Op.build, serve, isRequest, call, handleModifyDN, modifyDNTarget, checkDeleteOld, boolVal, PyVal.truthy, failWith]

section
variable {env : Env} {luck : Luck} {app : Client.App} {fuel c : Nat} {w : Client.World} {st st' : State}

theorem moved_sim {R : Dn.Rdn → Prop} {D : Directory} {dn : Dn.Dn} {s : Syntax.St} {r : Dn.Rdn} {p : Dn.Dn} {j : Nat}
    (hR : Spelled env.U R) (hs : Sim env.U R (foldDn env.U dn) st.heap D) (hr : R r) (ht : Textual s.dn) (hn : Textual (r :: p))
    (hp : C77.Possible env.U st.heap dn s.dn r p j) (hw : Ready luck c w) {m : Obj}
    (hx : Exchanged env luck app fuel c w (.send c (moveOp s.dn r p).build none) st st' (.response m)) :
    ∃ old d', (entryAt st.heap j).dn = old :: d' ∧ Dn.Dn.eq env.U (old :: d') s.dn = true ∧
      ((moved s (r :: p) m = ({ s with dn := r :: p }, none) ∧ C77.Renamed env.U st.heap st'.heap j s.dn (r :: p) old r) ∨
        ∃ code, code ≠ 0 ∧ moved s (r :: p) m = (s, some (.ldap code)) ∧
          ¬ ((∃ k, lookup env.U st.heap 0 p = .ok k) ∧ Rename.Renamable env.U (entryAt st.heap j) old r)) := by
  obtain ⟨x, f1, f2, f3, f4⟩ := exchanged_iff (op := moveOp s.dn r p) hw.connected (by have := hw.id; omega) hw.free rfl (by exact True.intro) hx
  obtain ⟨old, d', x', k1, k2, k3, _, k4, k5, k6⟩ := C77.renamed_sim (luck := luck) hR hr hs (move_asks ht hn) hw.id hp
  rw [serve_moved, k3] at f1
  cases f1
  subst f2
  refine ⟨old, d', k1, k2, ?_⟩
  rcases k6 with k | ⟨code, t, hc, k⟩
  · have := f4 (.result .modifyDN 0 [] []) (by exact True.intro) rfl k
    cases this
    exact .inl ⟨rfl, k4 k⟩
  · right
    have hsent : x.sent = [(.int w.nextId, (Op.result .modifyDN code [] t).build)] := by
      rw [k] at f3 ⊢
      unfold final at f3 ⊢
      split
      · rfl
      · rename_i h; rw [if_neg h] at f3; exact absurd rfl f3
    have := f4 (.result .modifyDN code [] t) (by exact True.intro) rfl hsent
    cases this
    refine ⟨code, hc, by simp [received, Op.build, ResultKind.cls, moved, hc], ?_⟩
    rintro ⟨h1, h2⟩
    have := k5 h1 h2
    rw [hsent] at this
    simp only [Op.build, List.cons.injEq, Prod.mk.injEq, true_and, and_true, Obj.result.injEq, PyVal.int.injEq] at this
    exact hc this.1

/-- After that, a program moves the entry at node `j`, a leaf, to a name that is free.  It is told of success, and its entry has the
new DN, exactly if the server has moved the entry; which it does if the new parent is there and the values of the RDNs can be
exchanged. -/
theorem moved_partial {dn : Dn.Dn} {as : Given} {bound : Option Nat} {l : List (Action × Told)}
    (hc : Talk env ⟨single ⟨dn, buildAttrs env.U as⟩, bound⟩ l st) (has : ByteNames as) (hg : Good env.U l) {s : Syntax.St} {t : Str}
    {r : Dn.Rdn} {p : Dn.Dn} (hd : s.deleted = false) (ht : Textual s.dn) (hparse : Dn.Dn.parse env.U t = .ok (r :: p)) (hn : Textual (r :: p))
    (halike : ∀ x ∈ l, ∀ r', AddsRdn env.U x.1 r' → Dn.Rdn.eq env.U r r' = true → r = r') {j : Nat}
    (hp : C77.Possible env.U st.heap dn s.dn r p j) (hw : Ready luck c w) {q : Obj} {new : Dn.Dn} (hq : move env.U s t = .ok (q, new)) {m : Obj}
    (hx : Exchanged env luck app fuel c w (.send c q none) st st' (.response m)) :
    new = r :: p ∧ ∃ old d', (entryAt st.heap j).dn = old :: d' ∧ Dn.Dn.eq env.U (old :: d') s.dn = true ∧
      ((moved s new m = ({ s with dn := new }, none) ∧ C77.Renamed env.U st.heap st'.heap j s.dn new old r) ∨
        ∃ code, code ≠ 0 ∧ moved s new m = (s, some (.ldap code)) ∧
          ¬ ((∃ k, lookup env.U st.heap 0 p = .ok k) ∧ Rename.Renamable env.U (entryAt st.heap j) old r)) := by
  rw [move_request hd hparse] at hq
  cases hq
  have hR : Spelled env.U fun x => x = r ∨ ∃ y ∈ l, AddsRdn env.U y.1 x := by
    have hr := hg.spelled
    refine ⟨?_, ?_⟩
    · rintro x (rfl | ha)
      · exact hn.types _ List.mem_cons_self
      · exact hr.1 x ha
    · rintro x y (rfl | ha) (rfl | hb) e
      · rfl
      · obtain ⟨z, hz, hb⟩ := hb
        exact halike z hz y hb ((Dn.Rdn.eq_iff env.U _ y).mpr e)
      · obtain ⟨z, hz, ha⟩ := ha
        exact (halike z hz x ha ((Dn.Rdn.eq_iff env.U _ x).mpr e.symm)).symm
      · exact hr.2 x y ha hb e
  obtain ⟨D', D, _, h2, _⟩ := talk_sim hR hc (C24.single_sim env.U dn as _) (.cons ⟨rfl, conveys_refl has⟩ .nil) hg.sensible
    (fun x hx r hr => .inr ⟨x, hx, hr⟩)
  exact ⟨rfl, moved_sim hR h2 (.inl rfl) ht hn hp hw hx⟩

end

/-! ### The answers -/

theorem readOp_result {m : Obj} {op : Op} (h : readOp m = some op) (k : ResultKind) :
    (∃ c d e t s, op = .result k c d e ∧ m = .result k.cls t (.int c) (.bytes d) (.bytes e) s) ∨
      ((∀ c d e, op ≠ .result k c d e) ∧ ∀ t c d e s, m ≠ .result k.cls t c d e s) := by
  by_cases hm : ∃ t c d e s, m = .result k.cls t c d e s
  · obtain ⟨t, c, d, e, s, rfl⟩ := hm
    left
    have h' : (do return Op.result (← ResultKind.ofCls k.cls) (← asInt c) (← asBytes d) (← asBytes e)) = some op := by
      cases k <;> exact h
    replace h' := C52.bind_some h'
    obtain ⟨k', hk, h'⟩ := h'
    replace h' := C52.bind_some h'
    obtain ⟨c', hc, h'⟩ := h'
    replace h' := C52.bind_some h'
    obtain ⟨d', hd, h'⟩ := h'
    replace h' := C52.bind_some h'
    obtain ⟨e', he, h'⟩ := h'
    cases h'
    have hc : c = .int c' := by cases c <;> simp [asInt] at hc; rw [hc]
    have hk : k' = k := by cases k <;> cases hk <;> rfl
    rw [hc, C52.asBytes_eq hd, C52.asBytes_eq he, hk]
    exact ⟨_, _, _, _, _, rfl, rfl⟩
  · right
    refine ⟨?_, fun t c d e s hx => hm ⟨t, c, d, e, s, hx⟩⟩
    rintro c d e rfl
    unfold readOp at h
    split at h
    all_goals try (repeat (replace h := C52.bind_some h; obtain ⟨_, _, h⟩ := h))
    all_goals cases h
    rename_i k' t' c' d' e' s' _ hk _ _ _
    have : k' = k.cls := by cases k' <;> cases hk <;> rfl
    rw [this] at hm
    exact hm ⟨_, _, _, _, _, rfl⟩

/-- Over every response that there is: an entry is taken to be added exactly on success without a matched DN; then it has the name
it was given, and nothing is known of its attributes.  Any other result code is raised. -/
theorem added_iff {U : Unicode} {dn : Dn.Dn} {m : Obj} {op : Op} (h : readOp m = some op) :
    (∀ e, added U dn m = .ok e ↔ e = ⟨dn, [], [], [], false, false⟩ ∧ ∃ t, op = .result .add 0 [] t) ∧
    ∀ code, added U dn m = .error (.ldap code) ↔ code ≠ 0 ∧ ∃ d t, op = .result .add code d t := by
  rcases readOp_result h .add with ⟨c, d, e, t, s, rfl, rfl⟩ | ⟨h1, h2⟩
  · simp only [added, ResultKind.cls, Syntax.noDn, Syntax.init, Op.result.injEq, true_and, PyVal.bytes.injEq]
    by_cases hc : c = 0
    · subst hc
      by_cases hd : d = []
      · subst hd
        refine ⟨fun e' => ?_, fun code => ?_⟩
        · simp [eq_comm]
          rfl
        · simp; intro h1 h2; exact absurd h2.symm h1
      · refine ⟨fun e' => ?_, fun code => ?_⟩
        · simp [hd]
        · simp [hd]; intro h1 h2; exact absurd h2.symm h1
    · refine ⟨fun e' => by simp [hc], fun code => ?_⟩
      simp [hc]
      rintro rfl
      exact hc
  · have ha : added U dn m = .error (.py .assertionError) := by
      unfold added
      split
      · exact absurd rfl (h2 _ _ _ _ _)
      · rfl
    rw [ha]
    exact ⟨fun e => ⟨nofun, fun ⟨_, t, h⟩ => absurd h (h1 _ _ _)⟩, fun code => ⟨nofun, fun ⟨_, d, t, h⟩ => absurd h (h1 _ _ _)⟩⟩

/-- The same for the deletion of an entry.  Responses of other kinds are never taken for success. -/
theorem deleteDone_iff {m : Obj} {op : Op} (h : readOp m = some op) :
    (deleteDone m = none ↔ ∃ t, op = .result .delete 0 [] t) ∧
    ∀ code d t, op = .result .delete code d t → code ≠ 0 → deleteDone m = some (.ldap code) := by
  rcases readOp_result h .delete with ⟨c, d, e, t, s, rfl, rfl⟩ | ⟨h1, h2⟩
  · simp only [deleteDone, ResultKind.cls, Syntax.noDn, Op.result.injEq, true_and, PyVal.bytes.injEq]
    by_cases hc : c = 0
    · subst hc
      by_cases hd : d = []
      · subst hd
        simp
      · simp [hd]
    · simp [hc]
  · have ha : deleteDone m ≠ none := by
      unfold deleteDone
      split
      · exact absurd rfl (h2 _ _ _ _ _)
      · nofun
      · nofun
      · nofun
    exact ⟨⟨fun h => absurd h ha, fun ⟨t, h⟩ => absurd h (h1 _ _ _)⟩, fun code d t h => absurd h (h1 _ _ _)⟩

/-- And for moving it: only on success the entry has another name, and nothing else of it is ever touched. -/
theorem moved_iff {s : Syntax.St} {dn : Dn.Dn} {m : Obj} {op : Op} (h : readOp m = some op) :
    ((moved s dn m).2 = none ↔ ∃ t, op = .result .modifyDN 0 [] t) ∧
    (∀ code, (moved s dn m).2 = some (.ldap code) ↔ code ≠ 0 ∧ ∃ d t, op = .result .modifyDN code d t) ∧
    (moved s dn m).1 = if (moved s dn m).2 = none then { s with dn := dn } else s := by
  rcases readOp_result h .modifyDN with ⟨c, d, e, t, x, rfl, rfl⟩ | ⟨h1, h2⟩
  · simp only [moved, ResultKind.cls, Syntax.noDn, Op.result.injEq, true_and, PyVal.bytes.injEq]
    by_cases hc : c = 0
    · subst hc
      by_cases hd : d = []
      · subst hd
        simp; intro code h1 h2; exact absurd h2.symm h1
      · simp [hd]; intro code h1 h2; exact absurd h2.symm h1
    · simp [hc]
  · have ha : moved s dn m = (s, some (.py .assertionError)) := by
      unfold moved
      split
      · exact absurd rfl (h2 _ _ _ _ _)
      · rfl
    rw [ha]
    exact ⟨⟨nofun, fun ⟨t, h⟩ => absurd h (h1 _ _ _)⟩, fun code => ⟨nofun, fun ⟨_, d, t, h⟩ => absurd h (h1 _ _ _)⟩, by simp⟩

/-! ### The hypotheses can be met -/

def app : Client.App := fun _ => ⟨[], false, false⟩

/-- The process after it is connected. -/
def world : Client.World := Client.run app 0 [.made 0]

theorem ready : Ready C40.luck 0 world :=
  ⟨by decide +kernel, by decide +kernel, by decide +kernel, fun e => by simp [C40.luck, Fit]⟩

/-- An entry of the client. -/
def entry (dn : Dn.Dn) : Syntax.St := Syntax.init asciiTables dn [] false

def a : Dn.Dn := [[⟨['d','c'],['a']⟩]]
def x : Dn.Rdn := [⟨['o','u'],['x']⟩]
def z : Dn.Rdn := [⟨['c','n'],['z']⟩]

def given : Given := [(.text "sn".toList, [.text ['s'], .bytes [0x74]]), (.text "objectClass".toList, [.text "top".toList]),
  (.text "cn".toList, [.text ['z']])]

/-- Adding an entry and one below it, adding it again, deleting the inner one, the leaf, the leaf by an entry that is deleted, and the
root. -/
def acts : List Action := [.add (entry a) "ou=x".toList [], .add (entry (x :: a)) "cn=z".toList given, .add (entry a) "ou=x".toList given,
  .delete (entry (x :: a)), .delete (entry (z :: x :: a)), .delete (deleteSent (entry (z :: x :: a))), .delete (entry a)]

def rdnOf : Action → Option Dn.Rdn
  | .add _ rdn _ => (Dn.Rdn.parse asciiTables rdn).toOption
  | .delete _ => none

theorem rdnOf_adds {b : Action} {r : Dn.Rdn} (h : AddsRdn asciiTables b r) : rdnOf b = some r := by
  obtain ⟨s, rdn, g, rfl, h⟩ := h
  simp [rdnOf, h, Except.toOption]

theorem ok_of {α : Type} {y : Py α} {b : α} (h : y.toOption = some b) : y = .ok b := by
  cases y with
  | error => cases h
  | ok c => simpa [Except.toOption] using h

theorem given_proper : Proper given := by
  refine ⟨.inl ?_, ?_, ?_, by decide +kernel⟩
  · intro p hp
    simp only [given, List.mem_cons, List.not_mem_nil, or_false] at hp
    rcases hp with rfl | rfl | rfl <;> exact ⟨_, rfl⟩
  · unfold PyStr.Ascii; decide +kernel
  · unfold SameName; decide +kernel

/-- Everything that `request_order` asks for. -/
example : ∃ dn attrs new, (addChild asciiTables (entry a) "cn=z".toList given).1 = .ok (.addRequest 0x48 dn attrs, new) := by
  obtain ⟨as, h, _⟩ := add_request (U := asciiTables) (s := entry a) (rdn := "cn=z".toList) (r := z) rfl ⟨by decide, by decide⟩ (ok_of (by decide +kernel)) (by decide)
    given_proper
  exact ⟨_, _, _, h⟩

theorem textuals : Textual a ∧ Textual (x :: a) ∧ Textual (z :: x :: a) :=
  ⟨⟨by decide, by decide⟩, ⟨by decide, by decide⟩, ⟨by decide, by decide⟩⟩

theorem acts_sensible : ∀ b ∈ acts, Sensible asciiTables b := by
  intro b hb
  obtain ⟨h1, h2, h3⟩ := textuals
  simp only [acts, List.mem_cons, List.not_mem_nil, or_false] at hb
  rcases hb with rfl | rfl | rfl | rfl | rfl | rfl | rfl
  · exact ⟨h1, ⟨x, ok_of (by decide +kernel), by decide⟩, ⟨.inl (by simp), by simp, .nil, by simp⟩⟩
  · exact ⟨h2, ⟨z, ok_of (by decide +kernel), by decide⟩, given_proper⟩
  · exact ⟨h1, ⟨x, ok_of (by decide +kernel), by decide⟩, given_proper⟩
  · exact h2
  · exact h3
  · exact h3
  · exact h1

theorem acts_alike : ∀ b ∈ acts, ∀ c ∈ acts, ∀ r r', AddsRdn asciiTables b r → AddsRdn asciiTables c r' → Dn.Rdn.eq asciiTables r r' = true → r = r' := by
  intro b hb c hc r r' hr hr' e
  have : ∀ y ∈ acts.filterMap rdnOf, ∀ z ∈ acts.filterMap rdnOf, Dn.Rdn.eq asciiTables y z = true → y = z := by decide +kernel
  exact this r (List.mem_filterMap.mpr ⟨b, hb, rdnOf_adds hr⟩) r' (List.mem_filterMap.mpr ⟨c, hc, rdnOf_adds hr'⟩) e

theorem acts_encode : ∀ b ∈ acts, ∀ r, b.request asciiTables = .ok r → encodes (.int world.nextId) r = true := by
  have : ∀ b ∈ acts, (match b.request asciiTables with | .ok r => encodes (.int world.nextId) r | .error _ => true) = true := by
    decide +kernel
  intro b hb r hr
  have := this b hb
  rwa [hr] at this

theorem nobody : ByteNames ([] : Given) := fun p hp => by cases hp

/-- Everything that `session_partial` asks for. -/
example : ∃ l st', l.map (·.1) = acts ∧ Talk C40.env ⟨single ⟨a, buildAttrs asciiTables []⟩, none⟩ l st' ∧ Good asciiTables l := by
  have hg : ∀ l : List (Action × Told), l.map (·.1) = acts → Good asciiTables l := fun l hl =>
    ⟨fun x hx => acts_sensible _ (hl ▸ List.mem_map_of_mem (f := (·.1)) hx), fun x hx y hy =>
      acts_alike _ (hl ▸ List.mem_map_of_mem (f := (·.1)) hx) _ (hl ▸ List.mem_map_of_mem (f := (·.1)) hy)⟩
  have hR := (hg (acts.map fun b => (b, .nothing)) (by simp [Function.comp_def])).spelled
  obtain ⟨l, st', h1, h2⟩ := talk_exists (env := C40.env) app 0 ready hR acts (st := ⟨single ⟨a, buildAttrs asciiTables []⟩, none⟩)
    (C24.single_sim asciiTables a [] _) (.cons ⟨rfl, conveys_refl nobody⟩ .nil) acts_sensible
    (fun b hb r hr => ⟨_, List.mem_map_of_mem (f := fun b => (b, Told.nothing)) hb, hr⟩) acts_encode
  exact ⟨l, st', h1, h2, hg l h1⟩

/-- The answer is this result, with empty texts. -/
def answers (i : Int) (k : ResultKind) (code : Int) : List (PyVal × Obj) → Bool
  | [(j, .result k' t c m e s)] => j = .int i && k' = k.cls && t = k.tag && c = .int code && m = .bytes [] && e = .bytes [] && s = .none
  | _ => false

theorem answers_iff {i : Int} {k : ResultKind} {code : Int} {l : List (PyVal × Obj)} (h : answers i k code l = true) :
    l = [(.int i, (Op.result k code [] []).build)] := by
  unfold answers at h
  split at h
  · simp only [Bool.and_eq_true, decide_eq_true_eq] at h
    obtain ⟨⟨⟨⟨⟨⟨rfl, rfl⟩, rfl⟩, rfl⟩, rfl⟩, rfl⟩, rfl⟩ := h
    rfl
  · cases h

/-- What the server of the examples makes of a request. -/
def serves (st : State) (op : Op) : Served := (serve C40.env C40.luck st (.message (.int world.nextId) (received op) none)).getD default

/-- An exchange with the server of the examples. -/
theorem exchanged {st : State} {op : Op} {k : ResultKind} {code : Int} (hwf : op.WF) (hna : Client.needsAnswer op.build = some true)
    (henc : encodes (.int world.nextId) op.build = true)
    (hs : (serve C40.env C40.luck st (.message (.int world.nextId) (received op) none)).isSome = true)
    (hans : answers world.nextId k code (serves st op).sent = true) (he : encodes (.int world.nextId) (Op.result k code [] []).build = true) :
    Exchanged C40.env C40.luck app 0 0 world (.send 0 op.build none) st (serves st op).state (.response (received (.result k code [] []))) := by
  obtain ⟨out, hout⟩ : ∃ out, toWire (.message (.int world.nextId) op.build none) = .ok out := by
    unfold encodes at henc
    cases hx : toWire (.message (.int world.nextId) op.build none) with
    | error e => rw [hx] at henc; cases henc
    | ok b => exact ⟨b, rfl⟩
  exact exchange_wire C40.env C40.luck st app 0 0 world ready.connected (by have := ready.id; omega) ready.free _ .plain nofun op
    (.result k code [] []) hwf (by simp only [Client.call]) hna hout _ (C77.some_getD hs) (answers_iff hans) (by exact True.intro) (by cases k <;> rfl) he

/-- The entry `cn=z,dc=a` of C77, as a program has it after a search. -/
def shown : Syntax.St := { entry (z :: a) with attrs := (entryAt C77.second.state.heap 2).attrs, remote := (entryAt C77.second.state.heap 2).attrs }

def new : Dn.Dn := [⟨['c','n'],['w']⟩] :: x :: a

/-- Moving it below `ou=x,dc=a`, under another name. -/
theorem moves : Exchanged C40.env C40.luck app 0 0 world (.send 0 (moveOp (z :: a) [⟨['c','n'],['w']⟩] (x :: a)).build none) C77.second.state
    (serves C77.second.state (moveOp (z :: a) [⟨['c','n'],['w']⟩] (x :: a))).state (.response (received (.result .modifyDN 0 [] []))) :=
  exchanged (by exact True.intro) rfl (by decide +kernel) (by decide +kernel) (by decide +kernel) (by decide +kernel)

def zAttrs : Given := [(.text "sn".toList, [.text ['s']]), (.text "cn".toList, [.text ['z'], .bytes (ascii "q")])]

/-- The two entries of C77 are added. -/
def two : List (Action × Told) := [
  (.add (entry a) "ou=x".toList [], .entry (entry (x :: a))), (.add (entry a) "cn=z".toList zAttrs, .entry (entry (z :: a)))]

theorem two_good : Good asciiTables two := by
  refine ⟨?_, ?_⟩
  · intro b hb
    simp only [two, List.mem_cons, List.not_mem_nil, or_false] at hb
    rcases hb with rfl | rfl
    · exact ⟨textuals.1, ⟨x, ok_of (by decide +kernel), by decide⟩, ⟨.inl (by simp), by simp, .nil, by simp⟩⟩
    · refine ⟨textuals.1, ⟨z, ok_of (by decide +kernel), by decide⟩, ⟨.inl ?_, ?_, ?_, by decide +kernel⟩⟩
      · intro p hp
        simp only [zAttrs, List.mem_cons, List.not_mem_nil, or_false] at hp
        rcases hp with rfl | rfl <;> exact ⟨_, rfl⟩
      · unfold PyStr.Ascii; decide +kernel
      · unfold SameName; decide +kernel
  · intro b hb c hc r r' hr hr' e
    have : ∀ y ∈ two.filterMap (fun y => rdnOf y.1), ∀ z ∈ two.filterMap (fun y => rdnOf y.1), Dn.Rdn.eq asciiTables y z = true → y = z := by
      decide +kernel
    exact this r (List.mem_filterMap.mpr ⟨b, hb, rdnOf_adds hr⟩) r' (List.mem_filterMap.mpr ⟨c, hc, rdnOf_adds hr'⟩) e

def add₁ : Op := .add (Utf8.encode (Dn.Dn.text (x :: a))) []
def add₂ : Op := .add (Utf8.encode (Dn.Dn.text (z :: a))) [(ascii "cn", [ascii "z", ascii "q"]), (ascii "sn", [ascii "s"])]

theorem two_talk : Talk C40.env ⟨single ⟨a, buildAttrs asciiTables []⟩, none⟩ two C77.second.state := by
  have h1 : addChild asciiTables (entry a) "ou=x".toList [] = (.ok (add₁.build, x :: a), []) := by
    have hp : Dn.Rdn.parse asciiTables "ou=x".toList = .ok x := ok_of (by decide +kernel)
    have h5 : (entry a).deleted = false := rfl
    unfold addChild
    rw [if_neg (by rw [h5]; nofun), hp]
    rfl
  have h2 : (addChild asciiTables (entry a) "cn=z".toList zAttrs).1 = .ok (add₂.build, z :: a) := by
    have hp : Dn.Rdn.parse asciiTables "cn=z".toList = .ok z := ok_of (by decide +kernel)
    have h5 : (entry a).deleted = false := rfl
    have hc : takeClasses zAttrs = ([], zAttrs) := by decide +kernel
    have hs : sortGiven zAttrs = .ok [(.text "cn".toList, [.text ['z'], .bytes (ascii "q")]), (.text "sn".toList, [.text ['s']])] := by decide +kernel
    have hw : wire [(.text "cn".toList, [.text ['z'], .bytes (ascii "q")]), (.text "sn".toList, [.text ['s']])] =
        [(ascii "cn", [ascii "z", ascii "q"]), (ascii "sn", [ascii "s"])] := by decide +kernel
    unfold addChild
    rw [if_neg (by rw [h5]; nofun)]
    simp only [hc, hs, hp, List.nil_append, attributeObj_wire, hw]
    rfl
  have s1 : (serves C77.start add₁).state = C77.first.state := by decide +kernel
  have s2 : (serves C77.first.state add₂).state = C77.second.state := by decide +kernel
  have e1 := exchanged (st := C77.start) (op := add₁) (k := .add) (code := 0) (by exact True.intro) rfl
    (by decide +kernel) (by decide +kernel) (by decide +kernel) (by decide +kernel)
  have e2 := exchanged (st := C77.first.state) (op := add₂) (k := .add) (code := 0) (by exact True.intro) rfl
    (by decide +kernel) (by decide +kernel) (by decide +kernel) (by decide +kernel)
  rw [s1] at e1
  rw [s2] at e2
  have r1 : (Action.add (entry a) "ou=x".toList []).request asciiTables = .ok add₁.build := by simp only [Action.request, h1]; rfl
  have r2 : (Action.add (entry a) "cn=z".toList zAttrs).request asciiTables = .ok add₂.build := by simp only [Action.request, h2]; rfl
  have t1 := Did.answered (env := C40.env) r1 ready e1
  have t2 := Did.answered (env := C40.env) r2 ready e2
  have a1 : (Action.add (entry a) "ou=x".toList []).answer asciiTables (received (.result .add 0 [] [])) = .entry (entry (x :: a)) := by
    simp only [Action.answer, h1]; rfl
  have a2 : (Action.add (entry a) "cn=z".toList zAttrs).answer asciiTables (received (.result .add 0 [] [])) = .entry (entry (z :: a)) := by
    simp only [Action.answer, h2]; rfl
  rw [show C40.env.U = asciiTables from rfl, a1] at t1
  rw [show C40.env.U = asciiTables from rfl, a2] at t2
  exact .cons t1 (.cons t2 (.nil _))

/-- Everything that `moved_partial` asks for, also for the server to move the entry. -/
example : ∃ (t : Str) (r : Dn.Rdn) (p : Dn.Dn) (j : Nat) (q m : Obj) (st' : State), shown.deleted = false ∧ Textual shown.dn ∧
    Dn.Dn.parse asciiTables t = .ok (r :: p) ∧ Textual (r :: p) ∧
    (∀ y ∈ two, ∀ r', AddsRdn asciiTables y.1 r' → Dn.Rdn.eq asciiTables r r' = true → r = r') ∧
    C77.Possible asciiTables C77.second.state.heap a shown.dn r p j ∧ move asciiTables shown t = .ok (q, r :: p) ∧
    Exchanged C40.env C40.luck app 0 0 world (.send 0 q none) C77.second.state st' (.response m) ∧
    lookup asciiTables C77.second.state.heap 0 p = .ok 1 ∧
    Rename.Renamable asciiTables (entryAt C77.second.state.heap 2) [⟨['c','n'],['z']⟩] r := by
  refine ⟨"cn=w,ou=x,dc=a".toList, [⟨['c','n'],['w']⟩], x :: a, 2, _, _, _, rfl, ⟨by decide, by decide⟩, ok_of (by decide +kernel), ⟨by decide, by decide⟩,
    ?_, ?_, move_request (by decide +kernel) (ok_of (by decide +kernel)), moves, by decide +kernel, ?_⟩
  · intro y hy r' hr'
    have : ∀ z ∈ two.filterMap (fun y => rdnOf y.1), Dn.Rdn.eq asciiTables [⟨['c','n'],['w']⟩] z = true → [⟨['c','n'],['w']⟩] = z := by
      decide +kernel
    exact this r' (List.mem_filterMap.mpr ⟨y, hy, rdnOf_adds hr'⟩)
  · refine ⟨by decide +kernel, by decide +kernel, fun y k hk => ?_, fun k hk => ?_, by decide +kernel⟩
    · have hR := two_good.spelled
      obtain ⟨D', D, _, hs, _⟩ := talk_sim (env := C40.env) hR two_talk (C24.single_sim asciiTables a [] _) (.cons ⟨rfl, conveys_refl nobody⟩ .nil)
        two_good.sensible (fun x hx r hr => ⟨x, hx, hr⟩)
      obtain ⟨hb, e⟩ := (Tree.lookup_iff hs.inv (hs.named.distinct hR hs.inv) hs.pos _ k).mp hk
      have hlt := hb.lt_length hs.inv hs.pos
      have hlen : C77.second.state.heap.length = 3 := by decide +kernel
      rw [hlen] at hlt
      have : ∀ k < 3, (foldDn asciiTables (dnOf C77.second.state.heap k)).tail ≠ foldDn asciiTables (z :: a) := by decide +kernel
      exact this k hlt (by
        have e' : foldDn asciiTables (dnOf C77.second.state.heap k) = foldDn asciiTables (y :: z :: a) := e
        rw [e']; rfl)
    · have : lookup asciiTables C77.second.state.heap 0 new = .error .noSuchObject := by decide +kernel
      rw [show [⟨['c','n'],['w']⟩] :: x :: a = new from rfl, this] at hk
      cases hk
  · have hg : (entryAt C77.second.state.heap 2).get asciiTables (.text ['c','n']) = .ok (some [.bytes (ascii "z"), .bytes (ascii "q")]) := by
      decide +kernel
    refine ⟨?_, by simp, ?_⟩
    · intro b hm
      simp only [List.mem_cons, List.not_mem_nil, or_false] at hm
      subst hm
      exact ⟨_, hg, .bytes (ascii "z"), by simp, by decide +kernel⟩
    · intro b hm
      simp only [List.mem_cons, List.not_mem_nil, or_false] at hm
      subst hm
      exact ⟨_, hg⟩

/-! ### Where the property fails -/

/-- **C90** Where the property fails: a program that has all of an entry moves it, and the server does so.  The entry of the program then
still has the value of the old RDN, and not that of the new one. -/
theorem stale : ∃ (s s' : Syntax.St) (t : Str) (q m : Obj) (new : Dn.Dn) (st st' : State) (j : Nat) (vs vs' : List PyStr),
    lookup asciiTables st.heap 0 s.dn = .ok j ∧ s.attrs = (entryAt st.heap j).attrs ∧ s.journal = [] ∧
    move asciiTables s t = .ok (q, new) ∧
    Exchanged C40.env C40.luck app 0 0 world (.send 0 q none) st st' (.response m) ∧ moved s new m = (s', none) ∧
    s'.dn = new ∧ lookup asciiTables st'.heap 0 new = .ok j ∧
    Entry.get asciiTables ⟨s'.dn, s'.attrs⟩ (.text ['c','n']) = .ok (some vs) ∧
    Entry.get asciiTables (entryAt st'.heap j) (.text ['c','n']) = .ok (some vs') ∧
    .bytes (ascii "z") ∈ vs ∧ .bytes (ascii "z") ∉ vs' ∧ .text ['w'] ∉ vs ∧ .text ['w'] ∈ vs' := by
  refine ⟨shown, { shown with dn := new }, "cn=w,ou=x,dc=a".toList, _, _, new, _, _, 2, [.bytes (ascii "z"), .bytes (ascii "q")],
    [.text ['w'], .bytes (ascii "q")], by decide +kernel, rfl, rfl, move_request (by decide +kernel) (ok_of (by decide +kernel)), moves, rfl, rfl,
    by decide +kernel, by decide +kernel, by decide +kernel, by decide +kernel, by decide +kernel, by decide +kernel, by decide +kernel⟩

/-- **C90** Where the property fails: the request to delete the root is refused, and the server has it as before.  But the entry of the
program counts as deleted, and refuses to do anything more. -/
theorem still_deleted : ∃ (s : Syntax.St) (q m : Obj) (st : State), s.deleted = false ∧ lookup asciiTables st.heap 0 s.dn = .ok 0 ∧
    deleteRequest s = .ok q ∧ Exchanged C40.env C40.luck app 0 0 world (.send 0 q none) st st (.response m) ∧
    deleteDone m = some (.ldap 64) ∧
    (∀ rdn g, (addChild asciiTables (deleteSent s) rdn g).1 = .error .deleted) ∧ (∀ t, move asciiTables (deleteSent s) t = .error .deleted) ∧
    deleteRequest (deleteSent s) = .error .deleted := by
  have hst : (serves C77.start (.delete (Utf8.encode (Dn.Dn.text a)))).state = C77.start := by
    decide +kernel
  have := exchanged (st := C77.start) (op := .delete (Utf8.encode (Dn.Dn.text a))) (k := .delete) (code := 64) (by exact True.intro) rfl
    (by decide +kernel) (by decide +kernel) (by decide +kernel) (by decide +kernel)
  rw [hst] at this
  exact ⟨entry a, _, _, C77.start, by decide +kernel, by decide +kernel, (delete_request (U := asciiTables) (by decide +kernel) textuals.1).1, this, rfl,
    fun rdn g => rfl, fun t => rfl, rfl⟩

/-- **C90** Where the property fails: a program that gives the same attributes to two new entries gives no object classes to the
second, for the first call has taken them out of its dict. -/
theorem reused_dict : ∃ (s : Syntax.St) (g : Given) (t t' : Str) (d : Bytes) (as : Spec.Attrs) (new : Dn.Dn), Proper g ∧
    Gives g (.text "objectClass".toList) (ascii "top") ∧
    (addChild asciiTables s t' (addChild asciiTables s t g).2).1 = .ok ((Op.add d as).build, new) ∧
    ∀ p ∈ as, ¬ SameName (.bytes p.1) (.text "objectClass".toList) := by
  refine ⟨entry a, given, "ou=x".toList, "ou=y".toList, Utf8.encode (Dn.Dn.text ([⟨['o','u'],['y']⟩] :: a)),
    wire [(.text "cn".toList, [.text ['z']]), (.text "sn".toList, [.text ['s'], .bytes [0x74]])], [⟨['o','u'],['y']⟩] :: a, given_proper,
    ⟨(.text "objectClass".toList, [.text "top".toList]), by decide +kernel, rfl, by decide +kernel⟩, ?_, ?_⟩
  · have h1 : (addChild asciiTables (entry a) "ou=x".toList given).2 =
        [(.text "sn".toList, [.text ['s'], .bytes [0x74]]), (.text "cn".toList, [.text ['z']])] := by decide +kernel
    rw [h1]
    have h2 : takeClasses [(.text "sn".toList, [.text ['s'], .bytes [0x74]]), (.text "cn".toList, [.text ['z']])] =
        ([], [(.text "sn".toList, [.text ['s'], .bytes [0x74]]), (.text "cn".toList, [.text ['z']])]) := by decide +kernel
    have h3 : sortGiven [(.text "sn".toList, [.text ['s'], .bytes [0x74]]), (.text "cn".toList, [.text ['z']])] =
        .ok [(.text "cn".toList, [.text ['z']]), (.text "sn".toList, [.text ['s'], .bytes [0x74]])] := by decide +kernel
    have h4 : Dn.Rdn.parse asciiTables "ou=y".toList = .ok [⟨['o','u'],['y']⟩] := ok_of (by decide +kernel)
    have h5 : (entry a).deleted = false := rfl
    unfold addChild
    rw [if_neg (by rw [h5]; nofun)]
    simp only [h2, h3, h4, List.nil_append, attributeObj_wire]
    rfl
  · unfold SameName; decide +kernel

end Verif.C90
