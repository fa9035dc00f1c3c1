import Verif.Lemmas.Syntax
/-
Copies of the attributes of an entry, made through `items()`.
-/
namespace Verif.Syntax
open Verif.Spec Verif.Spec.Modify PyStr
open Verif.Server (items otherItems_eq sortItems_perm classKeys)

variable {U : Unicode} {V : Vocabulary} {d : Attrs} {k : PyStr}

theorem content_of_has {d d' : Attrs} (h : ∀ n v, Has d n v ↔ Has d' n v) : Same (content d) (content d') := by
  have hc : ∀ (d : Attrs) n b, content d n b ↔ ∃ v, Has d n v ∧ v.toBytes = b := by
    intro d n b
    unfold content Has
    constructor
    · rintro ⟨p, hp, e, v, hv, e'⟩; exact ⟨v, ⟨p, hp, e, hv⟩, e'⟩
    · rintro ⟨v, ⟨p, hp, e, hv⟩, e'⟩; exact ⟨p, hp, e, v, hv, e'⟩
  intro n b
  rw [hc, hc]
  simp only [h]

theorem set_new (hU : Sane U) (hd : V.Named (d ++ [(k, vs)])) (ws : List PyStr) : d.set U k ws = d ++ [(k, ws)] := by
  induction d with
  | nil => rfl
  | cons q d ih =>
    have hq := hd.names q List.mem_cons_self
    have hk := hd.names (k, vs) (by simp)
    simp only [Attrs.set, List.cons_append]
    rw [if_neg fun e => Named.head (d := d ++ [(k, vs)]) hd (List.mem_append_right _ List.mem_cons_self) ((name_lower hU hq hk).mp e),
      ih (Named.tail (d := d ++ [(k, vs)]) hd)]

theorem find_new (hU : Sane U) (hd : V.Named (d ++ [(k, vs)])) : d.find U k = none := by
  induction d with
  | nil => rfl
  | cons q d ih =>
    have hq := hd.names q List.mem_cons_self
    have hk := hd.names (k, vs) (by simp)
    simp only [Attrs.find]
    rw [if_neg fun e => Named.head (d := d ++ [(k, vs)]) hd (List.mem_append_right _ List.mem_cons_self) ((name_lower hU hq hk).mp e),
      ih (Named.tail (d := d ++ [(k, vs)]) hd)]

/-- Named depends on the names only. -/
theorem named_names {d d' : Attrs} (h : d.map (·.1) = d'.map (·.1)) (hd : V.Named d) : V.Named d' := by
  have h1 : (d.map (·.1)).Pairwise fun x y => fold x.toBytes ≠ fold y.toBytes := by rw [List.pairwise_map]; exact hd.apart
  rw [h, List.pairwise_map] at h1
  refine ⟨fun p hp => ?_, h1⟩
  have : p.1 ∈ d.map (·.1) := by rw [h]; exact List.mem_map.mpr ⟨p, hp, rfl⟩
  obtain ⟨q, hq, e⟩ := List.mem_map.mp this
  rw [← e]; exact hd.names q hq

theorem named_sublist {d d' : Attrs} (h : d'.Sublist d) (hd : V.Named d) : V.Named d' :=
  ⟨fun p hp => hd.names p (h.subset hp), hd.apart.sublist h⟩

/-- Distinct names are just listed. -/
theorem rebuild_named (hU : Sane U) {l : Attrs} (hl : V.Named l) : rebuild U l = l.map fun p => (p.1, mkSet p.2) := by
  suffices h : ∀ (l d : Attrs), V.Named (d ++ l) →
      l.foldl (fun d p => d.set U p.1 (mkSet p.2)) d = d ++ l.map (fun p => (p.1, mkSet p.2)) from h l [] hl
  intro l
  induction l with
  | nil => simp
  | cons p l ih =>
    intro d hd
    have h1 : V.Named (d ++ [(p.1, p.2)]) := named_sublist (by simp) hd
    rw [List.foldl_cons, set_new hU h1, ih]
    · simp
    · exact named_names (by simp) hd

theorem buildAttrs_named (hU : Sane U) {l : Attrs} (hl : V.Named l) : Tree.buildAttrs U l = l.map fun p => (p.1, mkSet p.2) := by
  suffices h : ∀ (l d : Attrs), V.Named (d ++ l) → l.foldl (Tree.collect U) d = d ++ l by
    unfold Tree.buildAttrs
    rw [h l [] hl, List.nil_append]
  intro l
  induction l with
  | nil => simp
  | cons p l ih =>
    intro d hd
    have h1 : V.Named (d ++ [(p.1, p.2)]) := named_sublist (by simp) hd
    rw [List.foldl_cons, Tree.collect, find_new hU h1, ih]
    · simp
    · simpa using hd

/-- What `mkSet` makes of lists of values in some order. -/
theorem copy_tidy {l : Attrs} (hl : V.Named l) (hv : ∀ p ∈ l, ∀ v ∈ p.2, V.value (fold p.1.toBytes) v) :
    V.Tidy (l.map fun p => (p.1, mkSet p.2)) ∧ ∀ n v, Has (l.map fun p => (p.1, mkSet p.2)) n v ↔ Has l n v := by
  refine ⟨⟨named_names (by simp) hl, ?_, ?_⟩, fun n v => ?_⟩
  · intro p hp v hv'
    obtain ⟨q, hq, rfl⟩ := List.mem_map.mp hp
    exact hv q hq v (Delta.mem_mkSet.mp hv')
  · intro p hp
    obtain ⟨q, hq, rfl⟩ := List.mem_map.mp hp
    exact Delta.mkSet_nodup _
  · constructor
    · rintro ⟨p, hp, e, h⟩
      obtain ⟨q, hq, rfl⟩ := List.mem_map.mp hp
      exact ⟨q, hq, e, Delta.mem_mkSet.mp h⟩
    · rintro ⟨q, hq, e, h⟩
      exact ⟨_, List.mem_map.mpr ⟨q, hq, rfl⟩, e, Delta.mem_mkSet.mpr h⟩

theorem wellNamed (hd : V.Named d) (dn : Dn.Dn) : WellNamed ⟨dn, d⟩ := ⟨fun k vs h => (hd.names (k, vs) h).ascii, hd.apart⟩

theorem plain_oneKind (hP : V.Plain) (hd : V.Tidy d) : ∀ k vs, (k, vs) ∈ d → OneKind vs := by
  intro k vs hm
  cases vs with
  | nil => exact .inl (by simp)
  | cons v vs =>
    have h : ∀ w ∈ v :: vs, w.isText = v.isText := fun w hw => hP _ _ _ (hd.values _ hm w hw) (hd.values _ hm v List.mem_cons_self)
    cases hv : v.isText with
    | true => exact .inl fun w hw => (h w hw).trans hv
    | false => exact .inr fun w hw => (h w hw).trans hv

/-- The names in the items are those of the entry. -/
theorem items_names {env : Server.Env} {dn : Dn.Dn} (hk : ∀ k vs, (k, vs) ∈ d → OneKind vs) {l : Attrs} (h : items env ⟨dn, d⟩ = .ok l) :
    ∀ p ∈ l, ∃ q ∈ d, q.1.lower env.U = p.1.lower env.U ∧ (p.1 = q.1 ∨ p.1.Ascii) := by
  have hperm := sortItems_perm d
  have hr := otherItems_eq (U := env.U) (Server.sortItems d) (fun k vs hm _ => hk k vs (hperm.mem_iff.mp hm))
  simp only [items, hr, bind, Except.bind, pure, Except.pure] at h
  cases h
  intro p hp
  rcases List.mem_append.mp hp with hp | hp
  · obtain ⟨c, hc, hf⟩ := List.mem_filterMap.mp hp
    split at hf
    · rename_i v vs hv
      cases hf
      obtain ⟨k1, hk1, hl⟩ := Match.find_mem hv
      refine ⟨_, hk1, hl, .inr ?_⟩
      show c.Ascii
      unfold classKeys at hc
      split at hc <;> simp only [List.mem_cons, List.not_mem_nil, or_false] at hc <;> rcases hc with rfl | rfl <;> decide +kernel
    · cases hf
  · obtain ⟨q, hq, rfl⟩ := List.mem_map.mp hp
    exact ⟨q, hperm.mem_iff.mp (List.mem_filter.mp hq).1, rfl, .inl rfl⟩

/-- `items()` lists the same values under the same names. -/
theorem items_tidy {env : Server.Env} (hU : Sane env.U) (dn : Dn.Dn) (hP : V.Plain) (hd : V.Tidy d) :
    ∃ l, items env ⟨dn, d⟩ = .ok l ∧ V.Named l ∧ (∀ p ∈ l, ∀ v ∈ p.2, V.value (fold p.1.toBytes) v) ∧ ∀ n v, Has l n v ↔ Has d n v := by
  have hk := plain_oneKind hP hd
  obtain ⟨l, h0, h1, h2, h3, _⟩ := Server.items_shown hU (wellNamed hd.toNamed dn) hk
  have hvals : ∀ p ∈ l, ∃ q ∈ d, fold q.1.toBytes = fold p.1.toBytes ∧ p.2.Perm q.2 := by
    intro p hp
    obtain ⟨vs, ⟨k, hm, hs⟩, hperm⟩ := h1 p.1 p.2 hp
    exact ⟨_, hm, hs, hperm⟩
  refine ⟨l, h0, ⟨fun p hp => ?_, h3⟩, fun p hp v hv => ?_, fun n v => ?_⟩
  · obtain ⟨q, hq, e, hA⟩ := items_names hk h0 p hp
    obtain ⟨q', hq', e', _⟩ := hvals p hp
    have hA : p.1.Ascii := hA.elim (fun h => h ▸ (hd.names q hq).ascii) id
    have := (PyStr.lower_eq_iff hU (hd.names q hq).ascii hA).mp e
    exact ⟨hA, by rw [← this.1, (hd.names q hq).kind]; exact congrArg V.text this.2⟩
  · obtain ⟨q, hq, e, hperm⟩ := hvals p hp
    rw [← e]; exact hd.values q hq v (hperm.mem_iff.mp hv)
  · constructor
    · rintro ⟨p, hp, e, hv⟩
      obtain ⟨q, hq, e', hperm⟩ := hvals p hp
      exact ⟨q, hq, e'.trans e, hperm.mem_iff.mp hv⟩
    · rintro ⟨q, hq, e, hv⟩
      obtain ⟨k, ws, hm, hs, hperm⟩ := h2 q.1 q.2 ⟨q.1, hq, rfl⟩ (List.ne_nil_of_mem hv)
      exact ⟨(k, ws), hm, hs.symm.trans e, hperm.mem_iff.mpr hv⟩

end Verif.Syntax
