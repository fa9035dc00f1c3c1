import Verif.Lemmas.Delta
/-
The difference of two entries, attribute by attribute.
-/
namespace Verif.Delta
open Verif.Spec PyStr

variable {U : Unicode} {K : PyStr → Prop}

/-- The same modifications, each with its values in some order. -/
def Reordered : List Mod → List Mod → Prop
  | [], [] => True
  | m :: ms, m' :: ms' => m.kind = m'.kind ∧ m.key = m'.key ∧ m.values.Perm m'.values ∧ Reordered ms ms'
  | _, _ => False

theorem Reordered.refl (ms : List Mod) : Reordered ms ms := by
  induction ms with
  | nil => trivial
  | cons m ms ih => exact ⟨rfl, rfl, .refl _, ih⟩

theorem Reordered.append {l1 l2 ms : List Mod} (h : Reordered (l1 ++ l2) ms) :
    ∃ a b, ms = a ++ b ∧ Reordered l1 a ∧ Reordered l2 b := by
  induction l1 generalizing ms with
  | nil => exact ⟨[], ms, rfl, trivial, h⟩
  | cons m l ih =>
    cases ms with
    | nil => exact absurd h id
    | cons m' ms =>
      obtain ⟨h1, h2, h3, h4⟩ := h
      obtain ⟨a, b, rfl, ha, hb⟩ := ih h4
      exact ⟨m' :: a, b, rfl, ⟨h1, h2, h3, ha⟩, hb⟩

theorem Reordered.one {m : Mod} {ms : List Mod} (h : Reordered [m] ms) : ∃ vs, ms = [⟨m.kind, m.key, vs⟩] ∧ m.values.Perm vs := by
  match ms, h with
  | [m'], ⟨h1, h2, h3, _⟩ => exact ⟨m'.values, by cases m'; simp_all, h3⟩

theorem patchAll_append {l1 l2 : List Mod} {e e' : Entry} (h : patchAll U l1 e = (e', none)) :
    patchAll U (l1 ++ l2) e = patchAll U l2 e' := by
  induction l1 generalizing e with
  | nil => cases h; rfl
  | cons m l ih =>
    simp only [patchAll, List.cons_append] at h ⊢
    split at h
    · exact ih h
    · cases h

theorem patchAll_one {m : Mod} {e e' : Entry} (h : patch U m e = (e', none)) : patchAll U [m] e = (e', none) := by
  simp [patchAll, h]

/-- Modifications that treat each attribute once, each by itself. -/
theorem patchAll_keys (f : PyStr → List Mod) (P : PyStr → Option (List PyStr) → Prop) (e0 : Entry) (ks : List PyStr)
    (hn : ks.Nodup)
    (hf : ∀ k ∈ ks, ∀ e, Within K e.attrs → stored k e.attrs = stored k e0.attrs → ∀ r, Reordered (f k) r →
      ∃ e' o, patchAll U r e = (e', none) ∧ Becomes K e e' k o ∧ P k o)
    (e : Entry) (he : Within K e.attrs) (h0 : ∀ k ∈ ks, stored k e.attrs = stored k e0.attrs) (r : List Mod)
    (hr : Reordered (ks.flatMap f) r) :
    ∃ e', patchAll U r e = (e', none) ∧ e'.dn = e.dn ∧ Within K e'.attrs ∧ (∀ x ∈ ks, P x (stored x e'.attrs)) ∧
      ∀ x, x ∉ ks → stored x e'.attrs = stored x e.attrs := by
  induction ks generalizing e r with
  | nil =>
    cases r with
    | nil => exact ⟨e, rfl, rfl, he, by simp, fun _ _ => rfl⟩
    | cons _ _ => exact absurd hr id
  | cons k ks ih =>
    rw [List.flatMap_cons] at hr
    obtain ⟨a, b, rfl, ha, hb⟩ := hr.append
    obtain ⟨e1, o, h1, b1, hP⟩ := hf k (by simp) e he (h0 k (by simp)) a ha
    have hnk := List.nodup_cons.mp hn
    obtain ⟨e2, h2, hdn, hw, hp, hrest⟩ := ih hnk.2 (fun x hx => hf x (by simp [hx])) e1 b1.within
      (fun x hx => by
        have hne : x ≠ k := fun h => hnk.1 (h ▸ hx)
        rw [b1.stored, if_neg hne]; exact h0 x (by simp [hx])) b hb
    refine ⟨e2, by rw [patchAll_append h1]; exact h2, hdn.trans b1.dn, hw, fun x hx => ?_, fun x hx => ?_⟩
    · rcases List.mem_cons.mp hx with rfl | hx
      · rw [hrest _ hnk.1, b1.stored, if_pos rfl]; exact hP
      · exact hp x hx
    · rw [hrest x (fun h => hx (by simp [h])), b1.stored, if_neg (fun e => hx (by simp [e]))]

/-- What the difference says about one attribute. -/
def modsFor (a b : Entry) (k : PyStr) : List Mod :=
  match stored k a.attrs, stored k b.attrs with
  | none, some t => [⟨.add, k, t⟩]
  | some s, none => [⟨.delete, k, s⟩]
  | some s, some t =>
    (if AttributeSet.minus t s = [] then [] else [⟨.add, k, sortBytes (AttributeSet.minus t s)⟩]) ++
      (if AttributeSet.minus s t = [] then [] else [⟨.delete, k, sortBytes (AttributeSet.minus s t)⟩])
  | none, none => []

/-- What becomes of one attribute. -/
structure Outcome (a b : Entry) (k : PyStr) (o : Option (List PyStr)) : Prop where
  values : ∀ v, v ∈ o.getD [] ↔ v ∈ (stored k b.attrs).getD []
  kept : (stored k b.attrs).isSome → o.isSome
  gone : stored k b.attrs = none → (o.isSome ↔ (stored k a.attrs).getD [] ≠ [])

/-- No value set lists a value twice. -/
def Proper (e : Entry) : Prop := ∀ p ∈ e.attrs, p.2.Nodup

theorem modsFor_outcome (hU : Sane U) (hK : Coherent K) {a b : Entry} (pa : Proper a)
    (ha : ∀ p ∈ a.attrs, ∀ v ∈ p.2, v.Decodable) {k : PyStr} (hk : K k) (e : Entry) (he : Within K e.attrs)
    (h0 : stored k e.attrs = stored k a.attrs) (r : List Mod) (hr : Reordered (modsFor a b k) r) :
    ∃ e' o, patchAll U r e = (e', none) ∧ Becomes K e e' k o ∧ Outcome a b k o := by
  unfold modsFor at hr
  cases hsa : stored k a.attrs with
  | none =>
    cases hsb : stored k b.attrs with
    | none =>
      simp only [hsa, hsb] at hr
      cases r with
      | cons _ _ => exact absurd hr id
      | nil =>
        refine ⟨e, none, rfl, ⟨rfl, he, fun x => ?_⟩, ⟨by simp [hsb], by simp [hsb], by simp [hsa]⟩⟩
        split
        · rename_i hx; rw [hx, h0, hsa]
        · rfl
    | some t =>
      simp only [hsa, hsb] at hr
      obtain ⟨vs, rfl, hp⟩ := hr.one
      obtain ⟨e', h, hb⟩ := patch_add hU hK he hk vs
      rw [h0, hsa] at hb
      refine ⟨e', _, patchAll_one h, hb, ⟨fun v => ?_, by simp, by simp [hsb]⟩⟩
      simp only [Option.getD_some, mem_mkSet, hsb]
      exact hp.symm.mem_iff
  | some s =>
    have hsn : s.Nodup := pa _ (stored_mem hsa)
    have hsd := ha _ (stored_mem hsa)
    cases hsb : stored k b.attrs with
    | none =>
      simp only [hsa, hsb] at hr
      obtain ⟨vs, rfl, hp⟩ := hr.one
      simp only at hp
      by_cases hvs : vs = []
      · subst hvs
        have hs0 : s = [] := hp.eq_nil
        subst hs0
        obtain ⟨e', h, hb⟩ := patch_delete_all hU hK he hk (h0.trans hsa)
        exact ⟨e', none, patchAll_one h, hb, ⟨by simp [hsb], by simp [hsb], by simp [hsa]⟩⟩
      · obtain ⟨e', t, h, hb, _, ht⟩ := patch_delete hU hK he hk (h0.trans hsa) hsn hvs (hp.nodup_iff.mp hsn)
          (fun v hv => hsd v (hp.mem_iff.mpr hv)) (fun v hv => hp.mem_iff.mpr hv)
        refine ⟨e', _, patchAll_one h, hb, ⟨fun v => ?_, by simp, fun _ => ?_⟩⟩
        · simp only [Option.getD_some, ht, hsb, Option.getD_none, List.not_mem_nil, iff_false]
          rintro ⟨h1, h2⟩
          exact h2 (hp.mem_iff.mp h1)
        · simp only [Option.isSome_some, hsa, Option.getD_some, true_iff]
          intro hs0; subst hs0; exact hvs hp.symm.eq_nil
    | some t =>
      simp only [hsa, hsb] at hr
      obtain ⟨r1, r2, rfl, hr1, hr2⟩ := hr.append
      have step1 : ∃ e1 s1, patchAll U r1 e = (e1, none) ∧ Becomes K e e1 k (some s1) ∧ s1.Nodup ∧
          ∀ v, v ∈ s1 ↔ v ∈ s ∨ (v ∈ t ∧ v ∉ s) := by
        split at hr1
        · rename_i hz
          cases r1 with
          | cons _ _ => exact absurd hr1 id
          | nil =>
            refine ⟨e, s, rfl, ⟨rfl, he, fun x => ?_⟩, hsn, fun v => ?_⟩
            · split
              · rename_i hx; rw [hx, h0, hsa]
              · rfl
            · have : v ∉ AttributeSet.minus t s := by simp [hz]
              rw [mem_minus] at this
              exact ⟨.inl, fun | .inl h => h | .inr h => absurd h this⟩
        · obtain ⟨vs, rfl, hp⟩ := hr1.one
          simp only at hp
          obtain ⟨e', h, hb⟩ := patch_add hU hK he hk vs
          rw [h0, hsa] at hb
          refine ⟨e', _, patchAll_one h, hb, update_nodup hsn, fun v => ?_⟩
          rw [mem_update, ← mem_minus, hp.symm.mem_iff, (sortBytes_perm _).mem_iff]
      obtain ⟨e1, s1, h1, b1, hn1, hs1⟩ := step1
      have hst1 : stored k e1.attrs = some s1 := by rw [b1.stored]; simp
      have step2 : ∃ e2 s2, patchAll U r2 e1 = (e2, none) ∧ Becomes K e1 e2 k (some s2) ∧
          ∀ v, v ∈ s2 ↔ v ∈ s1 ∧ ¬ (v ∈ s ∧ v ∉ t) := by
        split at hr2
        · rename_i hz
          cases r2 with
          | cons _ _ => exact absurd hr2 id
          | nil =>
            refine ⟨e1, s1, rfl, ⟨rfl, b1.within, fun x => ?_⟩, fun v => ?_⟩
            · split
              · rename_i hx; rw [hx, hst1]
              · rfl
            · have : v ∉ AttributeSet.minus s t := by simp [hz]
              rw [mem_minus] at this
              exact ⟨fun h => ⟨h, this⟩, fun h => h.1⟩
        · rename_i hz
          obtain ⟨vs, rfl, hp⟩ := hr2.one
          simp only at hp
          have hmem : ∀ v, v ∈ vs ↔ v ∈ s ∧ v ∉ t := fun v => by
            rw [hp.symm.mem_iff, (sortBytes_perm _).mem_iff, mem_minus]
          have hvn : vs.Nodup := hp.nodup_iff.mp ((sortBytes_perm _).nodup_iff.mpr (hsn.filter _))
          have hv0 : vs ≠ [] := by
            intro h; subst h
            have h2 := sortBytes_perm (AttributeSet.minus s t)
            rw [hp.eq_nil] at h2
            exact hz h2.symm.eq_nil
          obtain ⟨e', t', h, hb, _, ht⟩ := patch_delete hU hK b1.within hk hst1 hn1 hv0 hvn
            (fun v hv => hsd v ((hmem v).mp hv).1) (fun v hv => (hs1 v).mpr (.inl ((hmem v).mp hv).1))
          exact ⟨e', t', patchAll_one h, hb, fun v => by rw [ht, hmem]⟩
      obtain ⟨e2, s2, h2, b2, hs2⟩ := step2
      refine ⟨e2, some s2, by rw [patchAll_append h1]; exact h2, ⟨b2.dn.trans b1.dn, b2.within, fun x => ?_⟩,
        ⟨fun v => ?_, by simp, by simp [hsb]⟩⟩
      · rw [b2.stored]
        split
        · rfl
        · rename_i hx; rw [b1.stored, if_neg hx]
      · simp only [Option.getD_some, hsb, hs2, hs1]
        by_cases x : v ∈ s <;> by_cases y : v ∈ t <;> simp [x, y]

/-! The lists of attributes. -/

theorem mem_names {e : Entry} {k : PyStr} : k ∈ names e ↔ (stored k e.attrs).isSome := stored_isSome.symm

theorem addedMods_eq (hU : Sane U) (hK : Coherent K) {a b : Entry} (hb : Within K b.attrs) (ks : List PyStr)
    (h : ∀ k ∈ ks, K k ∧ k ∈ names b ∧ k ∉ names a) : addedMods U b ks = .ok (ks.flatMap (modsFor a b)) := by
  induction ks with
  | nil => rfl
  | cons k ks ih =>
    obtain ⟨h1, h2, h3⟩ := h k (by simp)
    rw [mem_names] at h2 h3
    obtain ⟨t, ht⟩ := Option.isSome_iff_exists.mp h2
    have hn : stored k a.attrs = none := by simpa using h3
    simp [addedMods, getItem_eq hU hK hb h1 ht, ih (fun x hx => h x (by simp [hx])), bind, Except.bind, pure, Except.pure,
      modsFor, hn, ht]

theorem deletedMods_eq (hU : Sane U) (hK : Coherent K) {a b : Entry} (ha : Within K a.attrs) (ks : List PyStr)
    (h : ∀ k ∈ ks, K k ∧ k ∈ names a ∧ k ∉ names b) : deletedMods U a ks = .ok (ks.flatMap (modsFor a b)) := by
  induction ks with
  | nil => rfl
  | cons k ks ih =>
    obtain ⟨h1, h2, h3⟩ := h k (by simp)
    rw [mem_names] at h2 h3
    obtain ⟨t, ht⟩ := Option.isSome_iff_exists.mp h2
    have hn : stored k b.attrs = none := by simpa using h3
    simp [deletedMods, getItem_eq hU hK ha h1 ht, ih (fun x hx => h x (by simp [hx])), bind, Except.bind, pure, Except.pure,
      modsFor, hn, ht]

theorem sharedMods_eq (hU : Sane U) (hK : Coherent K) {a b : Entry} (ha : Within K a.attrs) (hb : Within K b.attrs)
    (ks : List PyStr) (h : ∀ k ∈ ks, K k ∧ k ∈ names a ∧ k ∈ names b) :
    sharedMods U a b ks = .ok (ks.flatMap (modsFor a b)) := by
  induction ks with
  | nil => rfl
  | cons k ks ih =>
    obtain ⟨h1, h2, h3⟩ := h k (by simp)
    rw [mem_names] at h2 h3
    obtain ⟨s, hs⟩ := Option.isSome_iff_exists.mp h2
    obtain ⟨t, ht⟩ := Option.isSome_iff_exists.mp h3
    simp [sharedMods, getItem_eq hU hK ha h1 hs, getItem_eq hU hK hb h1 ht, ih (fun x hx => h x (by simp [hx])), bind,
      Except.bind, pure, Except.pure, modsFor, hs, ht]

/-! Equality of entries. -/

theorem lexLe_total (l m : List Nat) : lexLe l m = true ∨ lexLe m l = true := by
  rw [Match.lexLe_iff, Match.lexLe_iff]; exact Std.le_total

theorem sortBytes_sorted (l : List PyStr) :
    (sortBytes l).Pairwise fun x y => lexLe (x.toBytes.map UInt8.toNat) (y.toBytes.map UInt8.toNat) = true := by
  induction l with
  | nil => exact .nil
  | cons x l ih =>
    simp only [sortBytes]
    generalize sortBytes l = m at ih
    induction m with
    | nil => simp [insertSorted]
    | cons y m ih2 =>
      simp only [insertSorted]
      have hy := List.pairwise_cons.mp ih
      split
      · rename_i hle
        refine List.pairwise_cons.mpr ⟨fun z hz => ?_, ih⟩
        rcases List.mem_cons.mp hz with rfl | hz
        · exact hle
        · have := hy.1 z hz
          rw [Match.lexLe_iff] at *
          exact Std.le_trans hle this
      · rename_i hle
        refine List.pairwise_cons.mpr ⟨fun z hz => ?_, ih2 hy.2⟩
        rcases List.mem_cons.mp ((insertSorted_perm x m).mem_iff.mp hz) with rfl | hz
        · exact (lexLe_total _ _).resolve_left hle
        · exact hy.1 z hz

theorem bytes_toNat_inj {l m : Bytes} (h : l.map UInt8.toNat = m.map UInt8.toNat) : l = m := by
  induction l generalizing m with
  | nil => cases m <;> simp_all
  | cons a l ih =>
    cases m with
    | nil => simp at h
    | cons b m =>
      simp only [List.map_cons, List.cons.injEq] at h
      rw [UInt8.toNat_inj.mp h.1, ih h.2]

/-- The sorted lists of names agree exactly if the names do. -/
theorem sorted_names_eq (hK : Coherent K) {a b : Entry} (ha : Within K a.attrs) (hb : Within K b.attrs) :
    sortBytes (names a) = sortBytes (names b) ↔ ∀ k, k ∈ names a ↔ k ∈ names b := by
  constructor
  · intro h k
    rw [← (sortBytes_perm (names a)).mem_iff, h, (sortBytes_perm (names b)).mem_iff]
  · intro h
    have hK' : ∀ {e : Entry} (_ : Within K e.attrs) {k}, k ∈ names e → K k := by
      intro e he k hk
      obtain ⟨p, hp, rfl⟩ := List.mem_map.mp hk
      exact he.names p hp
    refine List.Perm.eq_of_pairwise ?_ (sortBytes_sorted _) (sortBytes_sorted _) ?_
    · intro x y hx hy h1 h2
      rw [(sortBytes_perm _).mem_iff] at hx hy
      rw [Match.lexLe_iff] at h1 h2
      have := bytes_toNat_inj (Std.le_antisymm h1 h2)
      exact hK.unique x y (hK' ha hx) (hK' hb hy) (by unfold SameName; rw [this])
    · refine (sortBytes_perm _).trans (.trans ?_ (sortBytes_perm _).symm)
      exact (List.perm_ext_iff_of_nodup ha.nodup hb.nodup).mpr h

theorem equalValues_eq (hU : Sane U) (hK : Coherent K) {a b : Entry} (ha : Within K a.attrs) (hb : Within K b.attrs)
    (ks : List PyStr) (h : ∀ k ∈ ks, K k ∧ k ∈ names a ∧ k ∈ names b) :
    ∃ r, equalValues U a b ks = .ok r ∧
      (r = true ↔ ∀ k ∈ ks, ∀ v, v ∈ (stored k a.attrs).getD [] ↔ v ∈ (stored k b.attrs).getD []) := by
  induction ks with
  | nil => exact ⟨true, rfl, by simp⟩
  | cons k ks ih =>
    obtain ⟨h1, h2, h3⟩ := h k (by simp)
    rw [mem_names] at h2 h3
    obtain ⟨s, hs⟩ := Option.isSome_iff_exists.mp h2
    obtain ⟨t, ht⟩ := Option.isSome_iff_exists.mp h3
    obtain ⟨r, hr, hi⟩ := ih (fun x hx => h x (by simp [hx]))
    simp only [equalValues, getItem_eq hU hK ha h1 hs, getItem_eq hU hK hb h1 ht, bind, Except.bind]
    by_cases hss : sameSet s t = true
    · refine ⟨r, by rw [if_pos hss, hr], ?_⟩
      rw [hi]
      simp only [List.mem_cons, forall_eq_or_imp, hs, ht, Option.getD_some]
      exact ⟨fun h => ⟨sameSet_iff.mp hss, h⟩, fun h => h.2⟩
    · refine ⟨false, by rw [if_neg hss]; rfl, ?_⟩
      simp only [List.mem_cons, forall_eq_or_imp, hs, ht, Option.getD_some, Bool.false_eq_true, false_iff]
      rintro ⟨h, _⟩
      exact hss (sameSet_iff.mpr h)

/-- Two entries are equal exactly if they have equal names, the same attributes and the same values in each. -/
theorem entryEq_eq (hU : Sane U) (hK : Coherent K) {a b : Entry} (ha : Within K a.attrs) (hb : Within K b.attrs) :
    ∃ r, entryEq U a b = .ok r ∧
      (r = true ↔ Dn.Dn.eq U a.dn b.dn = true ∧ (∀ k, k ∈ names a ↔ k ∈ names b) ∧
        ∀ k v, v ∈ (stored k a.attrs).getD [] ↔ v ∈ (stored k b.attrs).getD []) := by
  unfold entryEq
  by_cases h1 : Dn.Dn.eq U a.dn b.dn = true
  · rw [if_neg (by simp [h1])]
    by_cases h2 : sortBytes (names a) = sortBytes (names b)
    · rw [if_neg (by simpa using h2)]
      have hn := (sorted_names_eq hK ha hb).mp h2
      obtain ⟨r, hr, hi⟩ := equalValues_eq hU hK ha hb (sortBytes (names a)) (fun k hk => by
        rw [(sortBytes_perm _).mem_iff] at hk
        refine ⟨?_, hk, (hn k).mp hk⟩
        obtain ⟨p, hp, rfl⟩ := List.mem_map.mp hk
        exact ha.names p hp)
      refine ⟨r, hr, ?_⟩
      rw [hi]
      simp only [h1, true_and, (sortBytes_perm _).mem_iff]
      refine ⟨fun h => ⟨hn, fun k v => ?_⟩, fun h k _ v => h.2 k v⟩
      by_cases hk : k ∈ names a
      · exact h k hk v
      · have e1 : stored k a.attrs = none := stored_none hk
        have e2 : stored k b.attrs = none := stored_none (fun h => hk ((hn k).mpr h))
        rw [e1, e2]
    · rw [if_pos (by simpa using h2)]
      refine ⟨false, rfl, ?_⟩
      simp only [Bool.false_eq_true, false_iff]
      rintro ⟨_, h, _⟩
      exact h2 ((sorted_names_eq hK ha hb).mpr h)
  · rw [if_pos (by simpa using h1)]
    exact ⟨false, rfl, by simp [h1]⟩

end Verif.Delta
