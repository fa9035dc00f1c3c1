import Verif.Lemmas.Directory
import Verif.Lemmas.Delta
/-
C24  Lookup finds exactly what was added and not deleted.

The claim fails when one RDN is used in two spellings, since children are kept under the text of their RDN while DNs are
compared without regard to case (`respelled_twin`), and when a reference to a deleted entry is kept
(`stale_delete`).  For requests that go by name and spell each RDN in one way it holds in full.
-/
namespace Verif.C24
open Verif.Dn Verif.Tree Verif.Spec

/-- The RDNs in a list of requests. -/
def rdns : List Request → List Rdn
  | [] => []
  | .add _ r _ :: rs => r :: rdns rs
  | .delete _ :: rs => rdns rs
  | .deleteChild _ r :: rs => r :: rdns rs

theorem uses_rdns (rs : List Request) : ∀ r ∈ rs, Uses (· ∈ rdns rs) r := by
  induction rs with
  | nil => intro r hr; cases hr
  | cons x rs ih =>
    have mono : ∀ r, Uses (· ∈ rdns rs) r → Uses (· ∈ rdns (x :: rs)) r := by
      intro r hr
      cases r <;> cases x <;> simp_all [Uses, rdns]
    intro r hr
    rcases List.mem_cons.mp hr with rfl | hr
    · cases r <;> simp [Uses, rdns]
    · exact mono r (ih r hr)

/-- The requests take RDNs that were read from text, and equal RDNs are spelled alike. -/
structure Uniform (U : Unicode) (rs : List Request) : Prop where
  parsed : ∀ r ∈ rdns rs, ∃ s, Rdn.parse U s = .ok r
  alike : ∀ r ∈ rdns rs, ∀ r' ∈ rdns rs, Rdn.eq U r r' = true → r = r'

theorem Uniform.spelled {U : Unicode} {rs : List Request} (h : Uniform U rs) : Spelled U (· ∈ rdns rs) := by
  refine ⟨fun r hr a ha => ?_, fun r r' hr hr' e => h.alike r hr r' hr' ((Rdn.eq_iff U r r').mpr e)⟩
  obtain ⟨s, hs⟩ := h.parsed r hr
  obtain ⟨t, _, ht⟩ := mapPy_mem hs a ha
  exact Ava.read_plain ht

theorem find_iff {D : Directory} (hn : (D.map (·.1)).Nodup) {x : Name} {as : List (PyStr × List PyStr)} :
    D.find x = some as ↔ (x, as) ∈ D := by
  unfold Directory.find
  induction D with
  | nil => simp
  | cons p D ih =>
    simp only [List.map_cons, List.nodup_cons] at hn
    rw [List.find?_cons]
    by_cases e : p.1 = x
    · simp only [e, beq_self_eq_true, Option.map_some, Option.some.injEq, List.mem_cons]
      constructor
      · rintro rfl; exact .inl (by rw [← e])
      · rintro (e' | hm)
        · rw [← e']
        · exact absurd (List.mem_map.mpr ⟨_, hm, e.symm⟩) hn.1
    · have : (p.1 == x) = false := by simpa using e
      simp only [this, ih hn.2, List.mem_cons]
      constructor
      · exact .inr
      · rintro (e' | hm)
        · rw [← e'] at e; exact absurd rfl e
        · exact hm

/-- A directory that consists of its root. -/
theorem single_sim (U : Unicode) (dn : Dn) (as : List (PyStr × List PyStr)) (R : Rdn → Prop) :
    Sim U R (foldDn U dn) (single ⟨dn, buildAttrs U as⟩) [(foldDn U dn, as)] := by
  obtain ⟨h1, h2⟩ := single_inv ⟨dn, buildAttrs U as⟩
  have get : ∀ (j : Nat) (n : Node), (single ⟨dn, buildAttrs U as⟩)[j]? = some n → n = ⟨⟨dn, buildAttrs U as⟩, none, []⟩ := by
    intro j n hj
    cases j with
    | zero => exact (Option.some.inj hj).symm
    | succ j => simp [single] at hj
  refine ⟨h1, h2, ?_, by simp, rfl, ?_, ?_⟩
  · rintro i k c rdn d ⟨n, hn, hc⟩
    rw [get i n hn] at hc; cases hc
  · intro j n _ hj
    rw [get j n hj]
    exact ⟨as, by simp, rfl⟩
  · intro x as' hm
    simp only [List.mem_singleton, Prod.mk.injEq] at hm
    obtain ⟨rfl, rfl⟩ := hm
    exact ⟨0, _, .refl 0, rfl, rfl, rfl⟩

/-- The tree answers requests as the finite map does; afterwards looking up a DN finds the entry of that name, with the
attributes given, if the map has one, and is refused otherwise. -/
theorem refines_partial (U : Unicode) (dn : Dn) (as : List (PyStr × List PyStr)) (rs : List Request) (hu : Uniform U rs) :
    let t := requests U (single ⟨dn, buildAttrs U as⟩) rs
    let m := Directory.run U (foldDn U dn) [(foldDn U dn, as)] rs
    t.2 = m.2 ∧ ∀ q : Dn,
      (m.1.find (foldDn U q) = none → lookup U t.1 0 q = .error .noSuchObject) ∧
      ∀ as', m.1.find (foldDn U q) = some as' → ∃ j n, lookup U t.1 0 q = .ok j ∧ t.1[j]? = some n ∧
        Dn.eq U n.entry.dn q = true ∧ n.entry.attrs = buildAttrs U as' := by
  intro t m
  have hR := hu.spelled
  have h0 := single_sim U dn as (· ∈ rdns rs)
  obtain ⟨h1, h2⟩ := run_sim hR rs _ _ h0 (uses_rdns rs)
  refine ⟨h1, fun q => ⟨fun hnone => ?_, fun as' hsome => ?_⟩⟩
  · refine h2.lookup_not hR fun hh => ?_
    obtain ⟨as', hm⟩ := has_iff.mp hh
    rw [(find_iff h2.nodup).mpr hm] at hnone
    cases hnone
  · obtain ⟨j, n, hb, hj, e1, e2⟩ := h2.complete _ _ ((find_iff h2.nodup).mp hsome)
    exact ⟨j, n, (lookup_iff h2.inv (h2.named.distinct hR h2.inv) h2.pos q j).mpr ⟨hb, by rw [dnOf_eq hj, e1]⟩, hj,
      (Dn.eq_iff U _ _).mpr e1, e2⟩

/-- The values of a new entry are the values given under the names that agree up to case. -/
theorem built_values (U : Unicode) (l : List (PyStr × List PyStr)) (k v : PyStr) :
    (∃ vs, (buildAttrs U l).find U k = some vs ∧ v ∈ vs) ↔ ∃ p ∈ l, p.1.lower U = k.lower U ∧ v ∈ p.2 := by
  have hfind : ∀ (d : Attrs), (∃ vs, Attrs.find U k (d.map fun p => (p.1, mkSet p.2)) = some vs ∧ v ∈ vs) ↔
      ∃ vs, d.find U k = some vs ∧ v ∈ vs := by
    intro d
    induction d with
    | nil => simp [Attrs.find]
    | cons p d ih =>
      obtain ⟨k', vs⟩ := p
      simp only [List.map_cons, Attrs.find]
      split
      · simp [Delta.mem_mkSet]
      · exact ih
  have hupd : ∀ (d : Attrs) (k0 : PyStr) (ws : List PyStr), (∃ us, d.find U k0 = some us) →
      ((∃ vs, (d.update U k0 (fun us => us ++ ws)).find U k = some vs ∧ v ∈ vs) ↔
        (∃ vs, d.find U k = some vs ∧ v ∈ vs) ∨ (k0.lower U = k.lower U ∧ v ∈ ws)) := by
    intro d k0 ws
    induction d with
    | nil => simp [Attrs.find]
    | cons p d ih =>
      obtain ⟨k', us⟩ := p
      simp only [Attrs.find, Attrs.update]
      by_cases e : k'.lower U = k0.lower U
      · simp only [e, if_true, Attrs.find]
        by_cases e2 : k0.lower U = k.lower U
        · simp [e2]
        · simp [e2]
      · simp only [e, if_false, Attrs.find]
        intro hex
        by_cases e2 : k'.lower U = k.lower U
        · have : ¬ k0.lower U = k.lower U := fun x => e (e2.trans x.symm)
          simp [e2, this]
        · simp only [e2, if_false]
          exact ih hex
  have happ : ∀ (d : Attrs) (p : PyStr × List PyStr), d.find U p.1 = none →
      ((∃ vs, Attrs.find U k (d ++ [p]) = some vs ∧ v ∈ vs) ↔
        (∃ vs, d.find U k = some vs ∧ v ∈ vs) ∨ (p.1.lower U = k.lower U ∧ v ∈ p.2)) := by
    intro d p
    induction d with
    | nil =>
      intro _
      simp only [List.nil_append, Attrs.find]
      by_cases e : p.1.lower U = k.lower U <;> simp [e]
    | cons q d ih =>
      obtain ⟨k', us⟩ := q
      simp only [List.cons_append, Attrs.find]
      by_cases e : k'.lower U = p.1.lower U
      · simp [e]
      · simp only [e, if_false]
        intro hnone
        by_cases e2 : k'.lower U = k.lower U
        · have : ¬ p.1.lower U = k.lower U := fun x => e (e2.trans x.symm)
          simp [e2, this]
        · simp only [e2, if_false]
          exact ih hnone
  have hfold : ∀ (l : List (PyStr × List PyStr)) (d : Attrs), (∃ vs, (l.foldl (collect U) d).find U k = some vs ∧ v ∈ vs) ↔
      (∃ vs, d.find U k = some vs ∧ v ∈ vs) ∨ ∃ p ∈ l, p.1.lower U = k.lower U ∧ v ∈ p.2 := by
    intro l
    induction l with
    | nil => intro d; simp
    | cons p l ih =>
      intro d
      rw [List.foldl_cons, ih]
      have : (∃ vs, (collect U d p).find U k = some vs ∧ v ∈ vs) ↔
          (∃ vs, d.find U k = some vs ∧ v ∈ vs) ∨ (p.1.lower U = k.lower U ∧ v ∈ p.2) := by
        unfold collect
        split
        · rename_i us hus; exact hupd d p.1 p.2 ⟨us, hus⟩
        · rename_i hus; exact happ d p hus
      rw [this]
      simp only [List.mem_cons, exists_eq_or_imp, or_assoc]
  unfold buildAttrs
  rw [hfind, hfold]
  simp [Attrs.find]

/-! Where the claim fails. -/

/-- The DN of the directories below. -/
def top : Dn := [[⟨['o'], ['x']⟩]]

/-- Two entries with equal DNs can be added, and only the first is ever found. -/
theorem respelled_twin : ∃ (r r' : Rdn) (h : Heap) (c c' : Nat), Rdn.eq asciiTables r r' = true ∧
    (∃ h1, addChild asciiTables (single ⟨top, []⟩) 0 r [] = .ok (h1, c) ∧ addChild asciiTables h1 0 r' [] = .ok (h, c')) ∧ c ≠ c' ∧
    lookup asciiTables h 0 (r :: top) = .ok c ∧ lookup asciiTables h 0 (r' :: top) = .ok c := by
  refine ⟨[⟨['c'], ['a']⟩], [⟨['c'], ['A']⟩],
    [⟨⟨top, []⟩, none, [(['c', '=', 'a'], 1), (['c', '=', 'A'], 2)]⟩, ⟨⟨[⟨['c'], ['a']⟩] :: top, []⟩, some 0, []⟩,
      ⟨⟨[⟨['c'], ['A']⟩] :: top, []⟩, some 0, []⟩], 1, 2, by decide +kernel,
    ⟨[⟨⟨top, []⟩, none, [(['c', '=', 'a'], 1)]⟩, ⟨⟨[⟨['c'], ['a']⟩] :: top, []⟩, some 0, []⟩], by decide +kernel, by decide +kernel⟩,
    by decide, by decide +kernel, by decide +kernel⟩

/-- Deleting an entry a second time, through a reference kept from before, removes another entry that was added under the
same name meanwhile. -/
theorem stale_delete : ∃ (cs : List Call) (h h' : Heap) (i j : Nat), callRun asciiTables (single ⟨top, []⟩) cs = h ∧
    Below h 0 j ∧ ¬ Below h 0 i ∧ delete h i = .ok (h', j) ∧ ¬ Below h' 0 j := by
  have leaf : ∀ h : Heap, ((h[0]?).map Node.children).getD [] = [] → ∀ j, j ≠ 0 → ¬ Below h 0 j := by
    rintro h e j hj ⟨l, hp⟩
    cases hp with
    | here => exact hj rfl
    | down hc _ =>
      obtain ⟨n, hn, hm⟩ := hc
      rw [hn] at e
      simp only [Option.map_some, Option.getD_some] at e
      rw [e] at hm
      cases hm
  refine ⟨[.add 0 [⟨['c'], ['a']⟩] [], .delete 1, .add 0 [⟨['c'], ['a']⟩] []], _, [⟨⟨top, []⟩, none, []⟩,
    ⟨⟨[⟨['c'], ['a']⟩] :: top, []⟩, some 0, []⟩, ⟨⟨[⟨['c'], ['a']⟩] :: top, []⟩, some 0, []⟩], 1, 2, rfl,
    ⟨_, .down (k := ['c', '=', 'a']) (childAs_of (by decide +kernel)) (.here 2)⟩, ?_, by decide +kernel, leaf _ rfl 2 (by decide)⟩
  rintro ⟨l, hp⟩
  have hrun : callRun asciiTables (single ⟨top, []⟩) [.add 0 [⟨['c'], ['a']⟩] [], .delete 1, .add 0 [⟨['c'], ['a']⟩] []] =
    [⟨⟨top, []⟩, none, [(['c', '=', 'a'], 2)]⟩, ⟨⟨[⟨['c'], ['a']⟩] :: top, []⟩, some 0, []⟩,
      ⟨⟨[⟨['c'], ['a']⟩] :: top, []⟩, some 0, []⟩] := by decide +kernel
  rw [hrun] at hp
  cases hp with
  | down hc hp' =>
    obtain ⟨n, hn, hm⟩ := hc
    cases hn
    simp only [List.mem_singleton, Prod.mk.injEq] at hm
    obtain ⟨_, rfl⟩ := hm
    cases hp' with
    | down hc _ =>
      obtain ⟨n, hn, hm⟩ := hc
      cases hn
      cases hm

/-- Requests that spell RDNs uniformly, among them refused ones. -/
example : ∃ rs : List Request, Uniform asciiTables rs ∧
    (requests asciiTables (single ⟨top, []⟩) rs).2 = [none, none, some .alreadyExists, some .notAllowedOnNonLeaf, none, none,
      some .noSuchObject, some .cannotRemoveRoot] := by
  refine ⟨[.add top [⟨['c'], ['a']⟩] [], .add ([⟨['C'], ['A']⟩] :: top) [⟨['c'], ['b']⟩] [(.text ['s'], [.text ['v']])],
    .add top [⟨['c'], ['a']⟩] [], .delete ([⟨['c'], ['a']⟩] :: top), .delete ([⟨['c'], ['b']⟩] :: [⟨['c'], ['a']⟩] :: top),
    .deleteChild top [⟨['c'], ['a']⟩], .delete ([⟨['c'], ['a']⟩] :: top), .delete top], ⟨?_, ?_⟩, by decide +kernel⟩
  · intro r hr
    refine ⟨r.text, ?_⟩
    revert r
    decide +kernel
  · decide +kernel

end Verif.C24
