import Verif.Props.C49
/-
C73: no edit removes a value that is part of the entry's own name.

`kept_partial`: so it is over all edits, if the attributes of the name are spelled in the entry and by the program just as in
the name, as text.  The check compares spellings: `octets_removed`: the names in search results are octets, and nothing is
protected in them.  `respelled_removed`: nor is it if the program writes the name in another case.  `root_refused`: an entry
with an empty DN refuses all removals with `IndexError`.
-/
namespace Verif.C73
open Verif.Spec.Modify Verif.Syntax

variable {U : Unicode} {V : Vocabulary}

/-- The name of the attribute in an assignment or a deletion.  Other edits go through the stored set, by whatever spelling
it is found. -/
def keyOf : Edit → Option PyStr
  | .set k _ => some k
  | .del k => some k
  | _ => none

/-- The value `a.value` of `a.attributeType` is there, spelled as in the name. -/
def Carries (d : Verif.Attrs) (a : Dn.Ava) : Prop := ∃ vs, (PyStr.text a.attributeType, vs) ∈ d ∧ PyStr.text a.value ∈ vs

/-- If an assignment or deletion is to an attribute of the name, it is spelled as there. -/
def Spelled (r : Dn.Rdn) (e : Edit) : Prop :=
  ∀ k, keyOf e = some k → ∀ a ∈ r, fold k.toBytes = fold (Utf8.encode a.attributeType) → k = .text a.attributeType

theorem edit_dn (s : St) (e : Edit) : (edit U s e).1.dn = s.dn := by
  cases e <;> simp only [edit, addValue, removeValue, clearValues, setItem, delItem] <;> (repeat' split) <;> rfl

theorem edit_kept (hU : Sane U) (hV : V.Fine) (s : St) (hd : V.Tidy s.attrs) {r : Dn.Rdn} {rest : Dn.Dn} (hdn : s.dn = r :: rest)
    (hc : ∀ a ∈ r, Carries s.attrs a) (e : Edit) (he : V.Speaks e) (hs : Spelled r e) : ∀ a ∈ r, Carries (edit U s e).1.attrs a := by
  have put : ∀ (s' : St) (k : PyStr) (old t : List PyStr), (k, old) ∈ s.attrs → (∀ a ∈ r, k = .text a.attributeType → PyStr.text a.value ∈ t) →
      s'.attrs = s.attrs.update U k (fun _ => t) → ∀ a ∈ r, Carries s'.attrs a := by
    intro s' k old t hm ht e a ha
    obtain ⟨vs, h1, h2⟩ := hc a ha
    rw [e]
    have hk := hd.names _ hm
    by_cases hf : fold (PyStr.text a.attributeType).toBytes = fold k.toBytes
    · have := Named.unique hd.toNamed h1 hm hf
      cases this
      exact ⟨t, (mem_update hU hd.toNamed hk).mpr (.inl ⟨_, hm, rfl, rfl⟩), ht a ha rfl⟩
    · exact ⟨vs, (mem_update hU hd.toNamed hk).mpr (.inr ⟨h1, hf⟩), h2⟩
  have own : ∀ {k : PyStr} {old : List PyStr}, (k, old) ∈ s.attrs → ∀ a ∈ r, k = .text a.attributeType → PyStr.text a.value ∈ old := by
    intro k old hm a ha e
    obtain ⟨vs, h1, h2⟩ := hc a ha
    subst e
    cases Named.unique hd.toNamed h1 hm rfl
    exact h2
  have guard : ∀ {k : PyStr}, canRemoveAll s k = none → ∀ a ∈ r, k ≠ .text a.attributeType := by
    intro k h a ha e
    simp only [canRemoveAll, hdn] at h
    split at h
    · cases h
    · split at h
      · cases h
      · rename_i hn
        exact hn (List.any_eq_true.mpr ⟨a, ha, by simp [e]⟩)
  cases e with
  | add k v =>
    simp only [edit]
    cases hp : target U s k with
    | error x => exact hc
    | ok p =>
      obtain ⟨key, old⟩ := p
      have hm := (target_mem hp).1
      simp only [addValue]
      cases hA : AttributeSet.add old v with
      | error x => exact hc
      | ok t =>
        refine put _ key old t hm (fun a ha e => ?_) rfl
        have := own hm a ha e
        simp only [AttributeSet.add, bind, Except.bind] at hA
        split at hA
        · cases hA
        · split at hA
          · cases hA; exact this
          · cases hA; exact List.mem_cons_of_mem _ this
  | update k vs =>
    simp only [edit]
    cases hp : target U s k with
    | error x => exact hc
    | ok p =>
      obtain ⟨key, old⟩ := p
      have hm := (target_mem hp).1
      exact put _ key old _ hm (fun a ha e => Delta.mem_update.mpr (.inl (own hm a ha e))) rfl
  | remove k v =>
    simp only [edit]
    cases hp : target U s k with
    | error x => exact hc
    | ok p =>
      obtain ⟨key, old⟩ := p
      have hm := (target_mem hp).1
      simp only [removeValue]
      split
      rotate_left
      · exact hc
      · rename_i hv
        cases hg : canRemove s key v with
        | some x => exact hc
        | none =>
          have hr := Delta.remove_mem (hV.decodable _ _ (hd.values _ hm v hv)) hv
          simp only [hr]
          refine put _ key old (old.erase v) hm (fun a ha e => ?_) rfl
          rw [List.Nodup.mem_erase_iff (hd.nodup _ hm)]
          refine ⟨fun e' => ?_, own hm a ha e⟩
          simp only [canRemove, hdn] at hg
          split at hg
          · cases hg
          · split at hg
            · cases hg
            · rename_i hn
              exact hn (List.any_eq_true.mpr ⟨a, ha, by simp [e, e']⟩)
  | clear k =>
    simp only [edit]
    cases hp : target U s k with
    | error x => exact hc
    | ok p =>
      obtain ⟨key, old⟩ := p
      have hm := (target_mem hp).1
      simp only [clearValues]
      cases hg : canRemoveAll s key with
      | some x => exact hc
      | none => exact put _ key old [] hm (fun a ha e => absurd e (guard hg a ha)) rfl
  | set k vs =>
    simp only [edit, setItem]
    cases hg : canRemoveAll s k with
    | some x => exact hc
    | none =>
      intro a ha
      obtain ⟨ws, h1, h2⟩ := hc a ha
      refine ⟨ws, (mem_set hU hd.toNamed he.1).mpr (.inr ⟨h1, fun e => guard hg a ha (hs k rfl a ha e.symm)⟩), h2⟩
  | del k =>
    simp only [edit, delItem]
    cases hg : canRemoveAll s k with
    | some x => exact hc
    | none =>
      cases hf : s.attrs.find U k with
      | none => exact hc
      | some old =>
        intro a ha
        obtain ⟨ws, h1, h2⟩ := hc a ha
        have hne : ¬ (PyStr.text a.attributeType).lower U = k.lower U := fun e => by
          have := Match.sameName_lower hU (hd.names _ h1).ascii he e
          exact guard hg a ha (hs k rfl a ha (Eq.symm this))
        refine ⟨ws, ?_, h2⟩
        show (PyStr.text a.attributeType, ws) ∈ s.attrs.erase U k
        generalize s.attrs = d at h1
        induction d with
        | nil => cases h1
        | cons q d ih =>
          simp only [Attrs.erase]
          rcases List.mem_cons.mp h1 with rfl | h1
          · rw [if_neg hne]; exact List.mem_cons_self
          · split
            · exact h1
            · exact List.mem_cons_of_mem _ (ih h1)

/-- **C73** Whatever is edited, the values in the entry's own name stay. -/
theorem kept_partial (hU : Sane U) (hV : V.Fine) (s : St) (hd : V.Tidy s.attrs) {r : Dn.Rdn} {rest : Dn.Dn} (hdn : s.dn = r :: rest)
    (hc : ∀ a ∈ r, Carries s.attrs a) (es : List Edit) (he : ∀ e ∈ es, V.Speaks e ∧ Spelled r e) :
    ∀ a ∈ r, Carries (C49.edits U s es).attrs a := by
  induction es generalizing s with
  | nil => exact hc
  | cons e es ih =>
    have h0 := he e List.mem_cons_self
    refine ih _ ?_ ((edit_dn s e).trans hdn) (edit_kept hU hV s hd hdn hc e h0.1 h0.2) fun x hx => he x (List.mem_cons_of_mem _ hx)
    rcases edit_edited hU hV hd h0.1 with ⟨h, _⟩ | ⟨m, _, hm⟩
    · show V.Tidy (edit U s e).1.attrs
      rw [h]; exact hd
    · exact hm.tidy

/-! ### Where it fails -/

/-- **C73 fails** for every entry whose names are octets, as search results are: nothing is protected. -/
theorem octets_unprotected (s : St) (ha : s.deleted = false) (hdn : s.dn ≠ []) (b : Bytes) (v : PyStr) :
    canRemove s (.bytes b) v = none ∧ canRemoveAll s (.bytes b) = none := by
  cases h : s.dn with
  | nil => exact absurd h hdn
  | cons r rest => simp [canRemove, canRemoveAll, ha, h]

/-- The only value of the attribute the entry is named by is removed. -/
theorem octets_removed : (edit asciiTables C49.found (.remove (C49.bytes "cn") (C49.bytes "bob"))).2 = none ∧
    (edit asciiTables C49.found (.remove (C49.bytes "cn") (C49.bytes "bob"))).1.attrs.find asciiTables (C49.bytes "cn") = some [] := by
  decide +kernel

/-- An entry that was made with text. -/
def made : St :=
  let d := [(PyStr.text "cn".toList, [PyStr.text "bob".toList, PyStr.text "rob".toList])]
  ⟨[[⟨"cn".toList, "bob".toList⟩]], d, d, [], false, true⟩

/-- **C73 fails** for another spelling of the name. -/
theorem respelled_removed : (edit asciiTables made (.set (.text "CN".toList) [])).2 = none ∧
    (edit asciiTables made (.set (.text "CN".toList) [])).1.attrs = [(.text "CN".toList, [])] := by
  decide +kernel

/-- An entry with an empty DN refuses all removals. -/
theorem root_refused (s : St) (ha : s.deleted = false) (hdn : s.dn = []) (k v : PyStr) :
    canRemove s k v = some (.py .indexError) ∧ canRemoveAll s k = some (.py .indexError) ∧
    (∀ vs, edit U s (.set k vs) = (s, some (.py .indexError))) ∧ edit U s (.del k) = (s, some (.py .indexError)) := by
  simp [canRemove, canRemoveAll, edit, setItem, delItem, ha, hdn]

/-! ### Example -/

theorem made_tidy : allText.Tidy made.attrs := by
  refine ⟨⟨?_, ?_⟩, ?_, ?_⟩
  · intro p hp
    rw [List.mem_singleton.mp hp]; exact ⟨by decide +kernel, rfl⟩
  · decide +kernel
  · intro p hp v hv
    show v.isText = true
    revert p v; decide +kernel
  · decide +kernel

/-- Attempts to remove it. -/
def attempts : List Edit :=
  [.remove (.text "CN".toList) (.text "bob".toList), .clear (.text "Cn".toList), .del (.text "cn".toList), .remove (.text "cn".toList) (.text "rob".toList)]

example : (C49.edits asciiTables made attempts).attrs = [(.text "cn".toList, [.text "bob".toList])] := by decide +kernel

example : ∀ a ∈ [(⟨"cn".toList, "bob".toList⟩ : Dn.Ava)], Carries (C49.edits asciiTables made attempts).attrs a := by
  refine kept_partial (V := allText) asciiTables_sane C49.allText_fine made made_tidy (r := [⟨"cn".toList, "bob".toList⟩]) (rest := []) rfl ?_ _ ?_
  · intro a ha
    rw [List.mem_singleton.mp ha]
    exact ⟨_, List.mem_cons_self, List.mem_cons_self⟩
  · intro e he
    simp only [attempts, List.mem_cons, List.not_mem_nil, or_false] at he
    rcases he with rfl | rfl | rfl | rfl
    · exact ⟨trivial, fun k h => by cases h⟩
    · exact ⟨by show (PyStr.text "Cn".toList).Ascii; decide +kernel, fun k h => by cases h⟩
    · refine ⟨by show (PyStr.text "cn".toList).Ascii; decide +kernel, fun k h a ha _ => ?_⟩
      cases h
      rw [List.mem_singleton.mp ha]
    · exact ⟨trivial, fun k h => by cases h⟩

end Verif.C73
