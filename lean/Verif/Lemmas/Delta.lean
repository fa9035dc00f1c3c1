import Verif.Lemmas.Match
import Verif.Model.Delta
/-
Modifications of entries whose attribute names are each spelled in one way.
-/
namespace Verif.Delta
open Verif.Spec PyStr

/-- The value set stored under exactly this spelling. -/
def stored (k : PyStr) : Attrs → Option (List PyStr)
  | [] => none
  | (k', vs) :: d => if k' = k then some vs else stored k d

/-- ASCII names of which no two are spellings of one name. -/
structure Coherent (K : PyStr → Prop) : Prop where
  ascii : ∀ k, K k → k.Ascii
  unique : ∀ k k', K k → K k' → SameName k k' → k = k'

/-- All names are from `K`, none is listed twice. -/
structure Within (K : PyStr → Prop) (d : Attrs) : Prop where
  names : ∀ p ∈ d, K p.1
  nodup : (d.map (·.1)).Nodup

variable {U : Unicode} {K : PyStr → Prop} {d : Attrs} {k : PyStr}

theorem Within.tail {p : PyStr × List PyStr} (h : Within K (p :: d)) : Within K d :=
  ⟨fun q hq => h.names q (by simp [hq]), (List.nodup_cons.mp (by simpa using h.nodup)).2⟩

theorem Within.head {p : PyStr × List PyStr} (h : Within K (p :: d)) : p.1 ∉ d.map (·.1) :=
  (List.nodup_cons.mp (by simpa using h.nodup)).1

theorem lower_iff (hU : Sane U) (hK : Coherent K) {x y : PyStr} (hx : K x) (hy : K y) : x.lower U = y.lower U ↔ x = y := by
  refine ⟨fun h => hK.unique x y hx hy (Match.sameName_lower hU (hK.ascii _ hx) (hK.ascii _ hy) h), fun h => h ▸ rfl⟩

theorem stored_none (h : k ∉ d.map (·.1)) : stored k d = none := by
  induction d with
  | nil => rfl
  | cons p d ih =>
    simp only [List.map_cons, List.mem_cons, not_or] at h
    simp only [stored]
    rw [if_neg (fun e => h.1 e.symm)]
    exact ih h.2

theorem stored_mem {vs : List PyStr} (h : stored k d = some vs) : (k, vs) ∈ d := by
  induction d with
  | nil => cases h
  | cons p d ih =>
    simp only [stored] at h
    split at h
    · rename_i e; cases h; simp [← e]
    · simp [ih h]

theorem stored_of_mem {vs : List PyStr} (hd : (d.map (·.1)).Nodup) (h : (k, vs) ∈ d) : stored k d = some vs := by
  induction d with
  | nil => cases h
  | cons p d ih =>
    simp only [List.map_cons, List.nodup_cons] at hd
    rcases List.mem_cons.mp h with rfl | h
    · simp [stored]
    · have hne : p.1 ≠ k := fun e => hd.1 (e ▸ List.mem_map.mpr ⟨(k, vs), h, rfl⟩)
      simp only [stored]
      rw [if_neg hne]
      exact ih hd.2 h

theorem stored_isSome : (stored k d).isSome ↔ k ∈ d.map (·.1) := by
  induction d with
  | nil => simp [stored]
  | cons p d ih =>
    simp only [stored]
    by_cases h : p.1 = k
    · simp [h]
    · simp [h, ih, Ne.symm h]

theorem find_eq (hU : Sane U) (hK : Coherent K) (hd : Within K d) (hk : K k) : d.find U k = stored k d := by
  induction d with
  | nil => rfl
  | cons p d ih =>
    simp only [Attrs.find, stored]
    simp only [lower_iff hU hK (hd.names p (by simp)) hk]
    rw [ih hd.tail]

theorem find_other (hU : Sane U) (hK : Coherent K) (hd : Within K d) (hk : K k) {y : PyStr} (hy : y.toBytes = k.toBytes)
    (ht : y.isText = !k.isText) : d.find U y = none := by
  cases h : d.find U y with
  | none => rfl
  | some vs =>
    exfalso
    obtain ⟨k', hm, he⟩ := Match.find_mem h
    have hyA : y.Ascii := by unfold Ascii; rw [hy]; exact hK.ascii _ hk
    have h1 := hd.names _ hm
    obtain ⟨t, s⟩ := (lower_eq_iff hU (hK.ascii _ h1) hyA).mp he
    rw [hy] at s
    have := hK.unique _ _ h1 hk s
    subst this
    rw [ht] at t
    revert t
    cases k'.isText <;> simp

theorem forms (hK : Coherent K) (hk : K k) :
    ∃ y, k.getStrings = .ok [k, y] ∧ y.toBytes = k.toBytes ∧ y.isText = !k.isText := by
  obtain ⟨l, hl⟩ := getStrings_total.mp (ascii_decodable (hK.ascii _ hk))
  obtain ⟨y, rfl, h1, h2⟩ := getStrings_ok hl
  exact ⟨y, hl, h1, h2⟩

theorem get_eq (hU : Sane U) (hK : Coherent K) {e : Entry} (hd : Within K e.attrs) (hk : K k) :
    e.get U k = .ok (stored k e.attrs) := by
  obtain ⟨y, h, h1, h2⟩ := forms hK hk
  simp only [Entry.get, h, bind, Except.bind, pure, Except.pure, Entry.firstOf, find_other hU hK hd hk h1 h2,
    find_eq hU hK hd hk]
  cases stored k e.attrs <;> rfl

theorem getItem_eq (hU : Sane U) (hK : Coherent K) {e : Entry} (hd : Within K e.attrs) (hk : K k) {vs : List PyStr}
    (h : stored k e.attrs = some vs) : e.getItem U k = .ok vs := by
  simp [Entry.getItem, get_eq hU hK hd hk, h, bind, Except.bind]

theorem hasKey_eq (hU : Sane U) (hK : Coherent K) {e : Entry} (hd : Within K e.attrs) (hk : K k) :
    e.hasKey U k = .ok (stored k e.attrs).isSome := by
  simp [Entry.hasKey, get_eq hU hK hd hk, bind, Except.bind, pure, Except.pure]

theorem set_names (hU : Sane U) (hK : Coherent K) (hd : Within K d) (hk : K k) (vs : List PyStr) :
    (d.set U k vs).map (·.1) = if k ∈ d.map (·.1) then d.map (·.1) else d.map (·.1) ++ [k] := by
  induction d with
  | nil => simp [Attrs.set]
  | cons p d ih =>
    simp only [Attrs.set]
    by_cases h : p.1 = k
    · rw [if_pos ((lower_iff hU hK (hd.names p (by simp)) hk).mpr h)]
      simp [h]
    · rw [if_neg (fun e => h ((lower_iff hU hK (hd.names p (by simp)) hk).mp e))]
      rw [List.map_cons, ih hd.tail]
      by_cases hm : k ∈ d.map (·.1)
      · rw [if_pos hm, if_pos (by simp only [List.map_cons, List.mem_cons]; exact .inr hm)]; simp
      · rw [if_neg hm, if_neg (by simp only [List.map_cons, List.mem_cons, not_or]; exact ⟨fun e => h e.symm, hm⟩)]; simp

theorem set_within (hU : Sane U) (hK : Coherent K) (hd : Within K d) (hk : K k) (vs : List PyStr) : Within K (d.set U k vs) := by
  have hn := set_names hU hK hd hk vs
  refine ⟨fun p hp => ?_, ?_⟩
  · have : p.1 ∈ (d.set U k vs).map (·.1) := List.mem_map.mpr ⟨p, hp, rfl⟩
    rw [hn] at this
    have hall : ∀ x ∈ d.map (·.1), K x := by
      intro x hx
      obtain ⟨q, hq, rfl⟩ := List.mem_map.mp hx
      exact hd.names q hq
    split at this
    · exact hall _ this
    · rcases List.mem_append.mp this with h | h
      · exact hall _ h
      · rw [List.mem_singleton.mp h]; exact hk
  · rw [hn]
    split
    · exact hd.nodup
    · rename_i h
      rw [List.nodup_append]
      exact ⟨hd.nodup, by simp, by
        intro a ha b hb
        rw [List.mem_singleton.mp hb]
        exact fun e => h (e ▸ ha)⟩

theorem stored_set (hU : Sane U) (hK : Coherent K) (hd : Within K d) (hk : K k) (vs : List PyStr) (x : PyStr) :
    stored x (d.set U k vs) = if x = k then some vs else stored x d := by
  induction d with
  | nil => simp [Attrs.set, stored, eq_comm]
  | cons p d ih =>
    simp only [Attrs.set]
    by_cases h : p.1 = k
    · rw [if_pos ((lower_iff hU hK (hd.names p (by simp)) hk).mpr h)]
      by_cases hx : x = k
      · simp [stored, hx]
      · simp [stored, hx, h, Ne.symm hx]
    · rw [if_neg (fun e => h ((lower_iff hU hK (hd.names p (by simp)) hk).mp e))]
      simp only [stored]
      rw [ih hd.tail]
      by_cases hx : x = k
      · subst hx; rw [if_neg h]; simp
      · simp [hx]

theorem update_names (f : List PyStr → List PyStr) : (d.update U k f).map (·.1) = d.map (·.1) := by
  induction d with
  | nil => rfl
  | cons p d ih =>
    simp only [Attrs.update]
    split <;> simp [ih]

theorem update_within (hd : Within K d) (f : List PyStr → List PyStr) : Within K (d.update U k f) := by
  refine ⟨fun p hp => ?_, by rw [update_names]; exact hd.nodup⟩
  have : p.1 ∈ (d.update U k f).map (·.1) := List.mem_map.mpr ⟨p, hp, rfl⟩
  rw [update_names] at this
  obtain ⟨q, hq, e⟩ := List.mem_map.mp this
  rw [← e]
  exact hd.names q hq

theorem stored_update (hU : Sane U) (hK : Coherent K) (hd : Within K d) (hk : K k) (f : List PyStr → List PyStr) (x : PyStr) :
    stored x (d.update U k f) = if x = k then (stored k d).map f else stored x d := by
  induction d with
  | nil => simp [Attrs.update, stored]
  | cons p d ih =>
    simp only [Attrs.update]
    by_cases h : p.1 = k
    · rw [if_pos ((lower_iff hU hK (hd.names p (by simp)) hk).mpr h)]
      by_cases hx : x = k
      · simp [stored, hx, h]
      · simp [stored, hx, h, Ne.symm hx]
    · rw [if_neg (fun e => h ((lower_iff hU hK (hd.names p (by simp)) hk).mp e))]
      simp only [stored]
      rw [ih hd.tail]
      by_cases hx : x = k
      · subst hx; rw [if_neg h]; simp [h]
      · simp [hx]

theorem erase_sub : (d.erase U k).Sublist d := by
  induction d with
  | nil => exact .slnil
  | cons p d ih =>
    simp only [Attrs.erase]
    split
    · exact List.sublist_cons_self _ _
    · exact ih.cons_cons _

theorem erase_within (hd : Within K d) : Within K (d.erase U k) :=
  ⟨fun p hp => hd.names p (erase_sub.subset hp), (erase_sub.map _).nodup hd.nodup⟩

theorem stored_erase (hU : Sane U) (hK : Coherent K) (hd : Within K d) (hk : K k) (x : PyStr) :
    stored x (d.erase U k) = if x = k then none else stored x d := by
  induction d with
  | nil => simp [Attrs.erase, stored]
  | cons p d ih =>
    simp only [Attrs.erase]
    by_cases h : p.1 = k
    · rw [if_pos ((lower_iff hU hK (hd.names p (by simp)) hk).mpr h)]
      by_cases hx : x = k
      · rw [if_pos hx, hx]
        exact stored_none (h ▸ hd.head)
      · simp [stored, hx, h, Ne.symm hx]
    · rw [if_neg (fun e => h ((lower_iff hU hK (hd.names p (by simp)) hk).mp e))]
      simp only [stored]
      rw [ih hd.tail]
      by_cases hx : x = k
      · subst hx; rw [if_neg h]; simp
      · simp [hx]

/-! The value sets. -/

theorem mem_mkSet {v : PyStr} {l : List PyStr} : v ∈ mkSet l ↔ v ∈ l := by
  induction l with
  | nil => rfl
  | cons a l ih =>
    simp only [mkSet]
    split
    · rename_i h
      rw [ih, List.mem_cons]
      exact ⟨.inr, fun | .inl e => e ▸ ih.mp (e ▸ h) | .inr h => h⟩
    · simp [ih]

theorem mkSet_nodup (l : List PyStr) : (mkSet l).Nodup := by
  induction l with
  | nil => exact List.nodup_nil
  | cons a l ih =>
    simp only [mkSet]
    split
    · exact ih
    · rename_i h; exact List.nodup_cons.mpr ⟨h, ih⟩

theorem mem_update {v : PyStr} {s vs : List PyStr} : v ∈ AttributeSet.update s vs ↔ v ∈ s ∨ v ∈ vs := by
  unfold AttributeSet.update
  induction vs generalizing s with
  | nil => simp
  | cons a vs ih =>
    rw [List.foldl_cons, ih]
    split
    · rename_i h
      simp only [List.mem_cons]
      exact ⟨fun | .inl h => .inl h | .inr h => .inr (.inr h),
        fun | .inl h => .inl h | .inr (.inl e) => .inl (e ▸ h) | .inr (.inr h) => .inr h⟩
    · simp only [List.mem_cons]
      exact ⟨fun | .inl (.inl h) => .inr (.inl h) | .inl (.inr h) => .inl h | .inr h => .inr (.inr h),
        fun | .inl h => .inl (.inr h) | .inr (.inl e) => .inl (.inl e) | .inr (.inr h) => .inr h⟩

theorem update_nodup {s vs : List PyStr} (h : s.Nodup) : (AttributeSet.update s vs).Nodup := by
  unfold AttributeSet.update
  induction vs generalizing s with
  | nil => exact h
  | cons a vs ih =>
    rw [List.foldl_cons]
    apply ih
    split
    · exact h
    · rename_i h2; exact List.nodup_cons.mpr ⟨h2, h⟩

/-- A member that can be decoded is removed. -/
theorem remove_mem {s : List PyStr} {v : PyStr} (hv : v.Decodable) (hm : v ∈ s) : AttributeSet.remove s v = .ok (s.erase v) := by
  obtain ⟨l, hl⟩ := getStrings_total.mp hv
  obtain ⟨y, rfl, _, _⟩ := getStrings_ok hl
  simp [AttributeSet.remove, hl, bind, Except.bind, AttributeSet.firstIn, hm, pure, Except.pure]

/-! Single modifications. -/

/-- Only the attribute `k` changes, and becomes `o`. -/
structure Becomes (K : PyStr → Prop) (e e' : Entry) (k : PyStr) (o : Option (List PyStr)) : Prop where
  dn : e'.dn = e.dn
  within : Within K e'.attrs
  stored : ∀ x, stored x e'.attrs = if x = k then o else Delta.stored x e.attrs

variable {e : Entry}

theorem changeItem_eq (hU : Sane U) (hK : Coherent K) (hd : Within K e.attrs) (hk : K k) {s t : List PyStr}
    {f : List PyStr → Py (List PyStr)} (hs : stored k e.attrs = some s) (hf : f s = .ok t) :
    ∃ e', e.changeItem U k f = (e', none) ∧ Becomes K e e' k (some t) := by
  obtain ⟨y, h, h1, h2⟩ := forms hK hk
  refine ⟨{ e with attrs := e.attrs.update U k (fun _ => t) }, ?_, rfl, update_within hd _, fun x => ?_⟩
  · simp [Entry.changeItem, h, Entry.formOf, find_eq hU hK hd hk, hs, hf]
  · simp only [stored_update hU hK hd hk]
    simp [hs]

theorem patch_add (hU : Sane U) (hK : Coherent K) (hd : Within K e.attrs) (hk : K k) (vs : List PyStr) :
    ∃ e', patch U ⟨.add, k, vs⟩ e = (e', none) ∧ Becomes K e e' k
      (some (match stored k e.attrs with
        | some s => AttributeSet.update s vs
        | none => mkSet vs)) := by
  simp only [patch, hasKey_eq hU hK hd hk]
  cases hs : stored k e.attrs with
  | some s => exact changeItem_eq hU hK hd hk hs rfl
  | none => exact ⟨_, rfl, rfl, set_within hU hK hd hk _, fun x => stored_set hU hK hd hk _ x⟩

theorem removeLoop_eq (hU : Sane U) (hK : Coherent K) (hk : K k) (vs : List PyStr) (hn : vs.Nodup)
    (hv : ∀ v ∈ vs, v.Decodable) (e : Entry) (hd : Within K e.attrs) (s : List PyStr) (hs : stored k e.attrs = some s)
    (hsn : s.Nodup) (hm : ∀ v ∈ vs, v ∈ s) :
    ∃ e' t, removeLoop U k vs e = (e', none) ∧ Becomes K e e' k (some t) ∧ t.Nodup ∧ ∀ v, v ∈ t ↔ v ∈ s ∧ v ∉ vs := by
  induction vs generalizing e s with
  | nil => exact ⟨e, s, rfl, ⟨rfl, hd, fun x => by split <;> simp_all⟩, hsn, by simp⟩
  | cons a vs ih =>
    obtain ⟨e1, h1, b1⟩ := changeItem_eq hU hK hd hk (f := fun s => AttributeSet.remove s a) hs
      (remove_mem (hv a (by simp)) (hm a (by simp)))
    obtain ⟨e2, t, h2, b2, hn2, ht⟩ := ih (List.nodup_cons.mp hn).2 (fun v h => hv v (by simp [h])) e1 b1.within (s.erase a)
      (by rw [b1.stored]; simp) (hsn.erase a) (fun v h => by
        rw [hsn.mem_erase_iff]
        exact ⟨fun e => (List.nodup_cons.mp hn).1 (e ▸ h), hm v (by simp [h])⟩)
    refine ⟨e2, t, by simp only [removeLoop, h1, h2], ⟨b2.dn.trans b1.dn, b2.within, fun x => ?_⟩, hn2, fun v => ?_⟩
    · rw [b2.stored]
      split
      · rfl
      · rename_i hx; rw [b1.stored, if_neg hx]
    · rw [ht, hsn.mem_erase_iff, List.mem_cons, not_or]
      exact ⟨fun ⟨⟨x, y⟩, z⟩ => ⟨y, x, z⟩, fun ⟨y, x, z⟩ => ⟨⟨x, y⟩, z⟩⟩

theorem patch_delete_all (hU : Sane U) (hK : Coherent K) (hd : Within K e.attrs) (hk : K k) {s : List PyStr}
    (hs : stored k e.attrs = some s) : ∃ e', patch U ⟨.delete, k, []⟩ e = (e', none) ∧ Becomes K e e' k none := by
  refine ⟨{ e with attrs := e.attrs.erase U k }, ?_, rfl, erase_within hd, fun x => stored_erase hU hK hd hk x⟩
  simp [patch, Entry.delItem, find_eq hU hK hd hk, hs]

theorem patch_delete (hU : Sane U) (hK : Coherent K) (hd : Within K e.attrs) (hk : K k) {s vs : List PyStr}
    (hs : stored k e.attrs = some s) (hsn : s.Nodup) (hne : vs ≠ []) (hn : vs.Nodup) (hv : ∀ v ∈ vs, v.Decodable)
    (hm : ∀ v ∈ vs, v ∈ s) :
    ∃ e' t, patch U ⟨.delete, k, vs⟩ e = (e', none) ∧ Becomes K e e' k (some t) ∧ t.Nodup ∧ ∀ v, v ∈ t ↔ v ∈ s ∧ v ∉ vs := by
  obtain ⟨e', t, h, r⟩ := removeLoop_eq hU hK hk vs hn hv e hd s hs hsn hm
  exact ⟨e', t, by simp [patch, hne, h], r⟩

/-! Sorting. -/

theorem insertSorted_perm (x : PyStr) (l : List PyStr) : (insertSorted x l).Perm (x :: l) := by
  induction l with
  | nil => exact .refl _
  | cons y l ih =>
    simp only [insertSorted]
    split
    · exact .refl _
    · exact (List.Perm.cons y ih).trans (List.Perm.swap x y l)

theorem sortBytes_perm (l : List PyStr) : (sortBytes l).Perm l := by
  induction l with
  | nil => exact .refl _
  | cons x l ih => exact (insertSorted_perm x _).trans (ih.cons x)

theorem mem_minus {v : PyStr} {s t : List PyStr} : v ∈ AttributeSet.minus s t ↔ v ∈ s ∧ v ∉ t := by
  simp [AttributeSet.minus]

theorem sameSet_iff {s t : List PyStr} : sameSet s t = true ↔ ∀ v, v ∈ s ↔ v ∈ t := by
  simp only [sameSet, Bool.and_eq_true, List.all_eq_true, decide_eq_true_eq]
  exact ⟨fun ⟨h1, h2⟩ v => ⟨h1 v, h2 v⟩, fun h => ⟨fun v => (h v).mp, fun v => (h v).mpr⟩⟩

end Verif.Delta
