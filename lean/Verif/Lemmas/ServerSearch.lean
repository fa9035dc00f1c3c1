import Verif.Lemmas.Server
import Verif.Lemmas.Match
import Verif.Lemmas.Delta
import Verif.Spec.Search
import Verif.Props.C26
/-
Searching over the wire.
-/
namespace Verif.Server
open Verif.Ldap Verif.Spec Verif.Tree Verif.Match

theorem sendEach_eachChild {accept : Nat → Option Bool} {cs r : List Nat} (h : eachChild accept cs = some r) :
    sendEach accept cs = (r, false) := by
  induction cs generalizing r with
  | nil => cases h; rfl
  | cons c cs ih =>
    simp only [eachChild] at h
    split at h
    · cases h
    · rename_i b hb
      split at h
      · cases h
      · rename_i r' hr'
        cases h
        simp only [sendEach, hb, ih hr']
        cases b <;> simp

/-- A search that nowhere raises reports exactly the accepted entries in scope. -/
theorem searchNodes_exact {h : Heap} (hv : Inv h) {i : Nat} (hi : i < h.length) (s : Scope) (accept : Nat → Option Bool)
    (hacc : ∀ j, C26.InScope h i s j → ∃ b, accept j = some b) :
    ∃ r, searchNodes h i s accept = (r, false) ∧ (∀ j, j ∈ r ↔ C26.InScope h i s j ∧ accept j = some true) ∧ r.Nodup ∧
      r.Pairwise fun a b => ¬ Below h b a := by
  cases s with
  | base =>
    obtain ⟨b, hb⟩ := hacc i rfl
    refine ⟨if b then [i] else [], by simp only [searchNodes, sendEach, hb]; cases b <;> simp, fun j => ?_, ?_, ?_⟩
    · simp only [C26.InScope]
      cases b
      · simp only [Bool.false_eq_true, if_false, List.not_mem_nil, false_iff, not_and]
        rintro rfl; simp [hb]
      · simp only [if_true, List.mem_singleton]
        exact ⟨fun e => ⟨e, e ▸ hb⟩, fun e => e.1⟩
    · cases b <;> simp
    · cases b <;> simp
  | one =>
    obtain ⟨n, hn⟩ : ∃ n, h[i]? = some n := ⟨h[i], List.getElem?_eq_getElem hi⟩
    have hmem : ∀ c, c ∈ n.children.map (·.2) ↔ ∃ k, ChildAs h i k c := by
      intro c
      constructor
      · intro hc
        obtain ⟨p, hp, rfl⟩ := List.mem_map.mp hc
        exact ⟨p.1, n, hn, hp⟩
      · rintro ⟨k, n', hn', hm⟩
        rw [hn] at hn'; cases hn'
        exact List.mem_map.mpr ⟨_, hm, rfl⟩
    obtain ⟨r, h1, h2, h3⟩ := C26.eachChild_spec accept (n.children.map (·.2)) (hv.nodes hn)
      (fun c hc => hacc c ((hmem c).mp hc))
    refine ⟨r, ?_, fun j => ?_, h3, ?_⟩
    · simp only [searchNodes, hn, Option.map_some, Option.getD_some, sendEach_eachChild h1]
    · rw [h2, hmem]; rfl
    · refine List.Pairwise.imp_of_mem ?_ h3
      rintro a b ha hb hab ⟨l, hl⟩
      obtain ⟨ka, hca⟩ := (hmem a).mp ((h2 a).mp ha).1
      obtain ⟨kb, hcb⟩ := (hmem b).mp ((h2 b).mp hb).1
      exact hab (C26.same_child hv hca hcb ⟨_, .here a⟩ ⟨l, hl⟩)
  | sub =>
    obtain ⟨r, h1, h2, h3⟩ := C26.walk_spec hv accept (h.length + 1) i hi (by omega) hacc
    refine ⟨r, h1, h2, ?_, h3⟩
    refine List.Pairwise.imp ?_ h3
    rintro a b hab rfl
    exact hab (.refl _)

theorem pieces_build (ps : List (SubKind × Bytes)) : pieces (ps.map subObj) = some (ps.map fun p =>
      match p.1 with
      | .initial => .initial (.bytes p.2)
      | .any => .any (.bytes p.2)
      | .final => .final (.bytes p.2)) := by
  induction ps with
  | nil => rfl
  | cons p ps ih =>
    obtain ⟨k, v⟩ := p
    cases k <;> simp [pieces, subObj, ih]

mutual
theorem toFilter_build : ∀ f : Spec.Filter, toFilter f.build = f.sem
  | .and fs => by simp only [Filter.build, toFilter, Filter.sem, toFilters_build fs]
  | .or fs => by simp only [Filter.build, toFilter, Filter.sem, toFilters_build fs]
  | .not f => by simp only [Filter.build, toFilter, Filter.sem, toFilter_build f]
  | .equal a v => by simp [Filter.build, toFilter, Filter.sem, assertion, octets?, octet, Obj.value, octetsOf]
  | .substrings a ps => by
    simp [Filter.build, toFilter, Filter.sem, octetsOf, pieces_build]
    intro a b _
    cases a <;> rfl
  | .ge a v => by simp [Filter.build, toFilter, Filter.sem, assertion, octets?, octet, Obj.value, octetsOf]
  | .le a v => by simp [Filter.build, toFilter, Filter.sem, assertion, octets?, octet, Obj.value, octetsOf]
  | .present a => by simp [Filter.build, toFilter, Filter.sem]
  | .approx a v => by simp [Filter.build, toFilter, Filter.sem, assertion, octets?, octet, Obj.value, octetsOf]
  | .ext r t v d => by simp [Filter.build, toFilter, Filter.sem]
theorem toFilters_build : ∀ fs : List Spec.Filter, toFilters (Filter.buildAll fs) = Filter.sems fs
  | [] => rfl
  | f :: fs => by simp only [Filter.buildAll, toFilters, Filter.sems, toFilter_build f, toFilters_build fs]
end

/-! The attributes of a result. -/

theorem insertItem_perm (x : PyStr × List PyStr) (l : Verif.Attrs) : (insertItem x l).Perm (x :: l) := by
  induction l with
  | nil => exact .refl _
  | cons y l ih =>
    unfold insertItem
    split
    · exact .refl _
    · exact (ih.cons y).trans (.swap x y l)

theorem sortItems_perm (l : Verif.Attrs) : (sortItems l).Perm l := by
  induction l with
  | nil => exact .refl _
  | cons x l ih => exact (insertItem_perm x _).trans (ih.cons x)

theorem sortValues_ok {vs : List PyStr} (h : OneKind vs) : sortValues vs = .ok (Delta.sortBytes vs) := by
  unfold sortValues
  rw [if_pos]
  rw [Bool.or_eq_true, List.all_eq_true, List.all_eq_true]
  rcases h with h | h
  · refine .inl fun v hv => ?_
    have := h v hv
    cases v <;> simp_all [PyStr.isText]
  · refine .inr fun v hv => ?_
    have := h v hv
    cases v <;> simp_all [PyStr.isText]

theorem otherItems_eq {U : Unicode} (l : Verif.Attrs) (h : ∀ k vs, (k, vs) ∈ l → isClassKey U k = false → OneKind vs) :
    otherItems U l = .ok ((l.filter fun p => !isClassKey U p.1).map fun p => (p.1, Delta.sortBytes p.2)) := by
  induction l with
  | nil => rfl
  | cons p l ih =>
    obtain ⟨k, vs⟩ := p
    have ih := ih (fun k vs hm => h k vs (List.mem_cons_of_mem _ hm))
    unfold otherItems
    cases hk : isClassKey U k with
    | true => simp [ih, hk]
    | false =>
      simp only [Bool.false_eq_true, if_false, sortValues_ok (h k vs List.mem_cons_self hk), ih, bind, Except.bind, pure,
        Except.pure, List.filter_cons, hk, Bool.not_false, if_true, List.map_cons]

def className : PyStr := .bytes (ascii "objectClass")

theorem isClassKey_iff {U : Unicode} (hU : Sane U) {k : PyStr} (hk : k.Ascii) :
    isClassKey U k = true ↔ SameName k className := by
  have h1 : PyStr.lower U (.text "objectClass".toList) = .text "objectclass".toList := by
    simp only [PyStr.lower]
    rw [hU.ascii _ (by decide)]
    decide
  have h2 : PyStr.lower U className = .bytes (ascii "objectclass") := by
    have : PyStr.lowerBytes (ascii "objectClass") = ascii "objectclass" := by decide +kernel
    simp only [PyStr.lower, className, this]
  have hA : PyStr.Ascii (.text "objectClass".toList) := by decide +kernel
  have hB : PyStr.Ascii className := by decide +kernel
  have hsame : SameName (.text "objectClass".toList) className := by unfold SameName; decide +kernel
  unfold isClassKey
  rw [Bool.or_eq_true, decide_eq_true_iff, decide_eq_true_iff, ← h1, ← h2, PyStr.lower_eq_iff hU hk hA, PyStr.lower_eq_iff hU hk hB]
  constructor
  · rintro (h | h)
    · exact h.2.trans hsame
    · exact h.2
  · intro h
    cases hkt : k.isText with
    | true => exact .inl ⟨rfl, h.trans hsame.symm⟩
    | false => exact .inr ⟨rfl, h⟩

theorem pairwise_ne {e : Entry} (he : WellNamed e) {p q : PyStr × List PyStr} (hp : p ∈ e.attrs) (hq : q ∈ e.attrs)
    (hne : p ≠ q) : ¬ SameName p.1 q.1 := by
  have := he.distinct
  revert hp hq
  generalize e.attrs = l at this
  induction this with
  | nil => intro h; cases h
  | cons h1 _ ih =>
    intro hp hq
    rcases List.mem_cons.mp hp with rfl | hp'
    · rcases List.mem_cons.mp hq with rfl | hq'
      · exact absurd rfl hne
      · exact h1 _ hq'
    · rcases List.mem_cons.mp hq with rfl | hq'
      · exact fun h => h1 _ hp' h.symm
      · exact ih hp' hq'

/-- The items of an entry, as octets, are what is shown when all attributes are wanted. -/
theorem items_shown {env : Env} (hU : Sane env.U) {e : Entry} (he : WellNamed e) (hk : ∀ k vs, (k, vs) ∈ e.attrs → OneKind vs) :
    ∃ l : Verif.Attrs, items env e = .ok l ∧
      (∀ k ws, (k, ws) ∈ l → ∃ vs, HasAttr e k vs ∧ ws.Perm vs) ∧
      (∀ a vs, HasAttr e a vs → vs ≠ [] → ∃ k ws, (k, ws) ∈ l ∧ SameName a k ∧ ws.Perm vs) ∧
      (l.Pairwise fun p q => ¬ SameName p.1 q.1) ∧ l.length ≤ e.attrs.length + 2 := by
  have hperm := sortItems_perm e.attrs
  have hr := otherItems_eq (U := env.U) (sortItems e.attrs) (fun k vs hm _ => hk k vs (hperm.mem_iff.mp hm))
  have hkey : ∀ k, k = PyStr.text "objectClass".toList ∨ k = className → k.Ascii ∧ SameName k className := by
    rintro k (rfl | rfl)
    · exact ⟨by decide +kernel, by unfold SameName; decide +kernel⟩
    · exact ⟨by decide +kernel, rfl⟩
  have hcls : ∀ k, k ∈ classKeys env ↔ k = .text "objectClass".toList ∨ k = className := by
    intro k
    unfold classKeys className
    split <;> simp [or_comm]
  have hsame : ∀ {a b c : PyStr}, SameName a b → SameName c b → SameName a c := fun h1 h2 => h1.trans h2.symm
  refine ⟨_, by simp only [items, hr, bind, Except.bind, pure, Except.pure]; rfl, ?_, ?_, ?_, ?_⟩
  · intro k ws hm
    rcases List.mem_append.mp hm with hm | hm
    · obtain ⟨k', hk', hf⟩ := List.mem_filterMap.mp hm
      split at hf
      · rename_i v vs hv
        cases hf
        obtain ⟨k1, hk1, hl⟩ := find_mem hv
        exact ⟨v :: vs, ⟨k1, hk1, sameName_lower hU (he.ascii _ _ hk1) (hkey k ((hcls k).mp hk')).1 hl⟩, Delta.sortBytes_perm _⟩
      · cases hf
    · obtain ⟨p, hp, hpe⟩ := List.mem_map.mp hm
      cases hpe
      exact ⟨p.2, ⟨p.1, hperm.mem_iff.mp (List.mem_filter.mp hp).1, rfl⟩, Delta.sortBytes_perm _⟩
  · rintro a vs ⟨k, hm, hs⟩ hne
    have hA := he.ascii _ _ hm
    cases hc : isClassKey env.U k with
    | false =>
      refine ⟨k, Delta.sortBytes vs, List.mem_append.mpr (.inr (List.mem_map.mpr ⟨(k, vs), List.mem_filter.mpr
        ⟨hperm.mem_iff.mpr hm, by simp [hc]⟩, rfl⟩)), hs.symm, Delta.sortBytes_perm _⟩
    | true =>
      have hkc := (isClassKey_iff hU hA).mp hc
      obtain ⟨c, hcm, hlow⟩ : ∃ c, c ∈ classKeys env ∧ k.lower env.U = c.lower env.U := by
        cases hkt : k.isText with
        | true =>
          have h := hkey (.text "objectClass".toList) (.inl rfl)
          exact ⟨_, (hcls _).mpr (.inl rfl), (PyStr.lower_eq_iff hU hA h.1).mpr ⟨hkt, hsame hkc h.2⟩⟩
        | false =>
          have h := hkey className (.inr rfl)
          exact ⟨_, (hcls _).mpr (.inr rfl), (PyStr.lower_eq_iff hU hA h.1).mpr ⟨hkt, hsame hkc h.2⟩⟩
      have hcA := (hkey c ((hcls c).mp hcm))
      have hfind : e.attrs.find env.U c = some vs := by
        cases hf : e.attrs.find env.U c with
        | none => exact absurd hlow (find_none hf k vs hm)
        | some ws =>
          obtain ⟨k', hm', hl'⟩ := find_mem hf
          have h1 : HasAttr e className ws := ⟨k', hm', (sameName_lower hU (he.ascii _ _ hm') hcA.1 hl').trans hcA.2⟩
          exact congrArg some (attr_unique he h1 ⟨k, hm, hkc⟩)
      refine ⟨c, Delta.sortBytes vs, List.mem_append.mpr (.inl (List.mem_filterMap.mpr ⟨c, hcm, ?_⟩)),
        (hs.symm.trans hkc).trans hcA.2.symm, Delta.sortBytes_perm _⟩
      rw [hfind]
      cases vs with
      | nil => exact absurd rfl hne
      | cons v vs => rfl
  · rw [List.pairwise_append]
    refine ⟨?_, ?_, ?_⟩
    · have key : ∀ {c1 c2 : PyStr} {v1 v2 : PyStr} {w1 w2 : List PyStr}, c1.Ascii ∧ SameName c1 className →
          c2.Ascii ∧ SameName c2 className → c1.isText ≠ c2.isText → e.attrs.find env.U c1 = some (v1 :: w1) →
          e.attrs.find env.U c2 = some (v2 :: w2) → False := by
        intro c1 c2 v1 v2 w1 w2 h1 h2 hne hf1 hf2
        obtain ⟨k1, hm1, hl1⟩ := find_mem hf1
        obtain ⟨k2, hm2, hl2⟩ := find_mem hf2
        have g1 := (PyStr.lower_eq_iff hU (he.ascii _ _ hm1) h1.1).mp hl1
        have g2 := (PyStr.lower_eq_iff hU (he.ascii _ _ hm2) h2.1).mp hl2
        have hs : SameName k1 k2 := (g1.2.trans h1.2).trans (g2.2.trans h2.2).symm
        have hk12 : (k1, v1 :: w1) ≠ (k2, v2 :: w2) := by
          intro h; cases h
          exact hne (g1.1.symm.trans g2.1)
        exact pairwise_ne he hm1 hm2 hk12 hs
      have h1 := hkey (.text "objectClass".toList) (.inl rfl)
      have h2 := hkey className (.inr rfl)
      unfold classKeys
      split
      · rw [show (PyStr.bytes (ascii "objectClass")) = className from rfl]
        simp only [List.filterMap_cons, List.filterMap_nil]
        cases ha : e.attrs.find env.U (.text "objectClass".toList) with
        | none => cases hb : e.attrs.find env.U className with
          | none => simp
          | some w => cases w <;> simp
        | some w => cases w with
          | nil => cases hb : e.attrs.find env.U className with
            | none => simp
            | some w => cases w <;> simp
          | cons v w => cases hb : e.attrs.find env.U className with
            | none => simp
            | some w' => cases w' with
              | nil => simp
              | cons v' w' => exact (key h1 h2 (by decide) ha hb).elim
      · rw [show (PyStr.bytes (ascii "objectClass")) = className from rfl]
        simp only [List.filterMap_cons, List.filterMap_nil]
        cases ha : e.attrs.find env.U (.text "objectClass".toList) with
        | none => cases hb : e.attrs.find env.U className with
          | none => simp
          | some w => cases w <;> simp
        | some w => cases w with
          | nil => cases hb : e.attrs.find env.U className with
            | none => simp
            | some w => cases w <;> simp
          | cons v w => cases hb : e.attrs.find env.U className with
            | none => simp
            | some w' => cases w' with
              | nil => simp
              | cons v' w' => exact (key h1 h2 (by decide) ha hb).elim
    · rw [List.pairwise_map]
      refine List.Pairwise.filter _ ?_
      exact hperm.symm.pairwise he.distinct (fun h1 h2 => h1 h2.symm)
    · rintro p hp q hq
      obtain ⟨k', hk', hf⟩ := List.mem_filterMap.mp hp
      obtain ⟨q', hq', hqe⟩ := List.mem_map.mp hq
      cases hqe
      have hqA := he.ascii q'.1 q'.2 (hperm.mem_iff.mp (List.mem_filter.mp hq').1)
      have hqc : isClassKey env.U q'.1 = false := by simpa using (List.mem_filter.mp hq').2
      split at hf
      · cases hf
        intro hs
        have h := hkey k' ((hcls k').mp hk')
        have := (isClassKey_iff hU hqA).mpr (hs.symm.trans h.2)
        rw [hqc] at this; cases this
      · cases hf
  · rw [List.length_append, List.length_map]
    have h1 : ∀ g : PyStr → Option (PyStr × List PyStr), ((classKeys env).filterMap g).length ≤ 2 := by
      intro g
      have := List.length_filterMap_le g (classKeys env)
      have h2 : (classKeys env).length = 2 := by unfold classKeys; split <;> rfl
      omega
    have h3 := List.length_filter_le (fun p : PyStr × List PyStr => !isClassKey env.U p.1) (sortItems e.attrs)
    rw [hperm.length_eq] at h3
    exact Nat.le_trans (Nat.add_le_add (h1 _) h3) (by omega)

/-- Attributes as the fields of a search result entry. -/
def fields (l : Spec.Attrs) : List (PyVal × List PyVal) := l.map fun kv => (.bytes kv.1, kv.2.map .bytes)

theorem allItems_shown {env : Env} (hU : Sane env.U) {e : Entry} (he : WellNamed e)
    (hk : ∀ k vs, (k, vs) ∈ e.attrs → OneKind vs) {wanted : List Bytes} (hw : ¬ Explicit wanted) :
    ∃ l, allItems env e = .ok (fields l) ∧ Shown e wanted l ∧ l.length ≤ e.attrs.length + 2 := by
  obtain ⟨l, h1, h2, h3, h4, h5⟩ := items_shown (env := env) hU he hk
  have hS : ∀ x : PyStr, SameName x (.bytes x.toBytes) := fun x => rfl
  refine ⟨l.map fun p => (p.1.toBytes, p.2.map PyStr.toBytes), ?_, ⟨?_, ?_, ?_⟩, by simpa using h5⟩
  · simp only [allItems, h1, bind, Except.bind, pure, Except.pure, fields, List.map_map]
    congr 1
    apply List.map_congr_left
    intro p _
    simp
  · intro k ws hm
    obtain ⟨p, hp, hpe⟩ := List.mem_map.mp hm
    cases hpe
    obtain ⟨vs, ⟨k, hm, hs⟩, hperm⟩ := h2 p.1 p.2 hp
    exact ⟨fun h => absurd h hw, vs, ⟨k, hm, hs⟩, hperm.map _⟩
  · intro a vs ha hne _
    obtain ⟨k, ws, hm, hs, hperm⟩ := h3 a vs ha hne
    exact ⟨k.toBytes, ws.map PyStr.toBytes, List.mem_map.mpr ⟨_, hm, rfl⟩, hs, hperm.map _⟩
  · intro _
    rw [List.pairwise_map]
    exact h4

theorem requested_spec {U : Unicode} (hU : Sane U) {e : Entry} (he : WellNamed e) (wanted : List Bytes)
    (hw : ∀ k ∈ wanted, (PyStr.bytes k).Ascii) :
    ∃ l : Spec.Attrs, requested U e (wanted.map .bytes) = .ok (fields l) ∧
      (∀ k ws, (k, ws) ∈ l ↔ k ∈ wanted ∧ ∃ vs, HasAttr e (.bytes k) vs ∧ ws = vs.map PyStr.toBytes) ∧
      (l.map (·.1)).Sublist wanted := by
  induction wanted with
  | nil => exact ⟨[], rfl, by simp, .slnil⟩
  | cons a wanted ih =>
    obtain ⟨l, h1, h2, h3⟩ := ih (fun k hk => hw k (List.mem_cons_of_mem _ hk))
    obtain ⟨r, hr, hspec⟩ := get_spec hU he (hw a List.mem_cons_self)
    cases r with
    | none =>
      refine ⟨l, by simp only [List.map_cons, requested, hr, h1, bind, Except.bind, pure, Except.pure], ?_, .cons _ h3⟩
      intro k ws
      rw [h2, List.mem_cons]
      constructor
      · rintro ⟨hm, h⟩; exact ⟨.inr hm, h⟩
      · rintro ⟨rfl | hm, vs, h, rfl⟩
        · have := (hspec vs).mpr h; cases this
        · exact ⟨hm, vs, h, rfl⟩
    | some vs =>
      have hvs := (hspec vs).mp rfl
      refine ⟨(a, vs.map PyStr.toBytes) :: l, by simp [requested, hr, h1, bind, Except.bind, pure, Except.pure, fields], ?_,
        .cons_cons _ h3⟩
      intro k ws
      rw [List.mem_cons, h2, List.mem_cons]
      constructor
      · rintro (h | ⟨hm, h⟩)
        · cases h; exact ⟨.inl rfl, vs, hvs, rfl⟩
        · exact ⟨.inr hm, h⟩
      · rintro ⟨rfl | hm, vs', h, rfl⟩
        · have := (hspec vs').mpr h; cases this; exact .inl rfl
        · exact .inr ⟨hm, vs', h, rfl⟩

theorem requested_shown {U : Unicode} (hU : Sane U) {e : Entry} (he : WellNamed e) {wanted : List Bytes}
    (hw : ∀ k ∈ wanted, (PyStr.bytes k).Ascii) (hx : Explicit wanted) :
    ∃ l, requested U e (wanted.map .bytes) = .ok (fields l) ∧ Shown e wanted l ∧ l.length ≤ wanted.length := by
  obtain ⟨l, h1, h2, h3⟩ := requested_spec hU he wanted hw
  refine ⟨l, h1, ⟨?_, ?_, ?_⟩, by simpa using h3.length_le⟩
  · intro k ws hm
    obtain ⟨hk, vs, ha, rfl⟩ := (h2 k ws).mp hm
    exact ⟨fun _ => hk, vs, ha, .refl _⟩
  · intro a vs ha hne hwant
    obtain ⟨k, hk, hs⟩ := hwant hx
    obtain ⟨k', hm, hs'⟩ := ha
    exact ⟨k, _, (h2 k _).mpr ⟨hk, vs, ⟨k', hm, hs'.trans hs⟩, rfl⟩, hs, .refl _⟩
  · intro h
    have := List.Pairwise.sublist h3 (h hx)
    rwa [List.pairwise_map] at this

/-! Sizes. -/

theorem sizeSum_le {α : Type} (f : α → Nat) (c : Nat) (l : List α) (h : ∀ x ∈ l, f x ≤ c) : sizeSum f l ≤ l.length * c := by
  induction l with
  | nil => simp [sizeSum]
  | cons x l ih =>
    have h1 := h x List.mem_cons_self
    have h2 := ih (fun y hy => h y (List.mem_cons_of_mem _ hy))
    simp only [sizeSum, List.length_cons]
    rw [Nat.succ_mul]
    omega

theorem lowerBytes_length (b : Bytes) : (PyStr.lowerBytes b).length = b.length := by simp [PyStr.lowerBytes]

theorem shown_size {e : Entry} {wanted : List Bytes} {l : Spec.Attrs} (hm : Modest e wanted) (hs : Shown e wanted l)
    (hl : l.length ≤ 2 ^ 33) : (Op.entry (Utf8.encode e.dn.text) l).size < 2 ^ 150 := by
  have h1 : ∀ kv ∈ l, attrSize kv ≤ 2 ^ 66 := by
    rintro ⟨k, ws⟩ hkv
    obtain ⟨-, vs, ⟨k', hm', hsame⟩, hperm⟩ := hs.sound k ws hkv
    obtain ⟨a1, a2, a3⟩ := hm.names k' vs hm'
    have hk : k.length < 2 ^ 32 := by
      have : (PyStr.lowerBytes k'.toBytes).length = (PyStr.lowerBytes k).length := by rw [hsame]; rfl
      rw [lowerBytes_length, lowerBytes_length] at this
      unfold Fit at a1; omega
    have hw : sizeSum octSize ws ≤ ws.length * 2 ^ 33 := by
      refine sizeSum_le _ _ _ fun w hw => ?_
      obtain ⟨v, hv, rfl⟩ := List.mem_map.mp (hperm.mem_iff.mp hw)
      have := a3 v hv
      unfold Fit at this
      simp only [octSize, elementSize]; omega
    have hlen : ws.length = vs.length := by rw [hperm.length_eq, List.length_map]
    have : ws.length * 2 ^ 33 ≤ 2 ^ 32 * 2 ^ 33 := Nat.mul_le_mul_right _ (by omega)
    simp only [attrSize, octSize, elementSize] at hw ⊢
    omega
  have h2 := sizeSum_le attrSize _ l h1
  have h3 : l.length * 2 ^ 66 ≤ 2 ^ 33 * 2 ^ 66 := Nat.mul_le_mul_right _ hl
  have h4 := hm.dn
  unfold Fit at h4
  simp only [Op.size, octSize, elementSize]
  omega

theorem two200_lt_limit : 2 ^ 200 < lengthLimit := by decide +kernel

theorem encodes_big (i : Int) (op : Op) (hi : 0 ≤ i ∧ i < 2 ^ 31) (h : op.size < 2 ^ 150) :
    encodes (.int i) op.build = true := by
  have hs : (Msg.mk i op none).size < lengthLimit := by
    have := two200_lt_limit
    simp only [Msg.size, controlsSize, elementSize, intSize]
    omega
  obtain ⟨w, hw, _⟩ := W.msg ⟨i, op, none⟩ hs
  simp only [Msg.build, Option.map_none] at hw
  simp [encodes, hw, Except.isOk, Except.toBool]

/-- What is sent for an entry. -/
theorem resultEntry_shown {env : Env} (hU : Sane env.U) {e : Entry} (he : WellNamed e)
    (hk : ∀ k vs, (k, vs) ∈ e.attrs → OneKind vs) {wanted : List Bytes} (hw : ∀ k ∈ wanted, (PyStr.bytes k).Ascii)
    (hm : Modest e wanted) {i : Int} (hi : 0 ≤ i ∧ i < 2 ^ 31) :
    ∃ l, resultEntry env (wanted.map .bytes) e = .ok (Op.entry (Utf8.encode e.dn.text) l).build ∧ Shown e wanted l ∧
      encodes (.int i) (Op.entry (Utf8.encode e.dn.text) l).build = true := by
  have hx : (wanted.map PyVal.bytes ≠ [] ∧ PyVal.bytes (ascii "*") ∉ wanted.map PyVal.bytes) ↔ Explicit wanted := by
    have hstar : ascii "*" = [0x2a] := by decide +kernel
    simp [Explicit, hstar]
  have main : ∃ l, resultAttrs env (wanted.map .bytes) e = .ok (fields l) ∧ Shown e wanted l ∧ l.length ≤ 2 ^ 33 := by
    unfold resultAttrs
    by_cases h : Explicit wanted
    · rw [if_pos (hx.mpr h)]
      obtain ⟨l, h1, h2, h3⟩ := requested_shown hU he hw h
      exact ⟨l, h1, h2, by have := hm.wanted; omega⟩
    · rw [if_neg (fun h' => h (hx.mp h'))]
      obtain ⟨l, h1, h2, h3⟩ := allItems_shown (env := env) hU he hk h
      exact ⟨l, h1, h2, by have := hm.count; omega⟩
  obtain ⟨l, h1, h2, h3⟩ := main
  exact ⟨l, by simp only [resultEntry, h1, bind, Except.bind, pure, Except.pure, Op.build, fields], h2,
    encodes_big i _ hi (shown_size hm h2 h3)⟩

/-! The heap of a server. -/

theorem changeItem_dn {U : Unicode} {e : Entry} {k : PyStr} {f} : (e.changeItem U k f).1.dn = e.dn := by
  unfold Entry.changeItem
  split
  · rfl
  · split
    · rfl
    · split <;> rfl

theorem removeLoop_dn {U : Unicode} {k : PyStr} (vs : List PyStr) (e : Entry) : (Delta.removeLoop U k vs e).1.dn = e.dn := by
  induction vs generalizing e with
  | nil => rfl
  | cons v vs ih =>
    unfold Delta.removeLoop
    have h := changeItem_dn (U := U) (e := e) (k := k) (f := fun s => AttributeSet.remove s v)
    split
    · rename_i e' he
      rw [he] at h
      exact (ih e').trans h
    · rename_i he
      rw [he] at h
      exact h

theorem delItem_dn {U : Unicode} {e e' : Entry} {k : PyStr} (h : e.delItem U k = .ok e') : e'.dn = e.dn := by
  unfold Entry.delItem at h
  split at h <;> cases h
  rfl

theorem patch_dn {U : Unicode} (m : Mod) (e : Entry) : (Delta.patch U m e).1.dn = e.dn := by
  unfold Delta.patch
  split
  · split
    · rfl
    · exact changeItem_dn
    · rfl
  · split
    · split
      · exact delItem_dn ‹_›
      · rfl
    · exact removeLoop_dn _ _
  · split
    · split
      · exact delItem_dn ‹_›
      · rfl
      · rfl
    · rfl

theorem patchAll_dn {U : Unicode} (ms : List Mod) (e : Entry) : (Delta.patchAll U ms e).1.dn = e.dn := by
  induction ms generalizing e with
  | nil => rfl
  | cons m ms ih =>
    unfold Delta.patchAll
    have h := patch_dn (U := U) m e
    split
    · rename_i e' he
      rw [he] at h
      exact (ih e').trans h
    · rename_i he
      rw [he] at h
      exact h

theorem setPassword_dn {U : Unicode} {sha1 : Bytes → Bytes} {b : Bool} {e e' : Entry} {pw salt : Bytes}
    (h : Password.setPassword U sha1 b e pw salt = .ok e') : e'.dn = e.dn := by
  have one : ∀ (c : PyStr) (e e' : Entry) (k : PyStr), Password.setIfPresent U c e k = .ok e' → e'.dn = e.dn := by
    intro c e e' k h
    simp only [Password.setIfPresent, bind, Except.bind, pure, Except.pure] at h
    split at h
    · cases h
    · cases h
      split <;> rfl
  have all : ∀ (c : PyStr) (ks : List PyStr) (e e' : Entry), ks.foldlM (Password.setIfPresent U c) e = .ok e' → e'.dn = e.dn := by
    intro c ks
    induction ks with
    | nil => intro e e' h; cases h; rfl
    | cons k ks ih =>
      intro e e' h
      rw [List.foldlM_cons] at h
      simp only [bind, Except.bind] at h
      split at h
      · cases h
      · rename_i e1 h1
        exact (ih _ _ h).trans (one _ _ _ _ h1)
  simp only [Password.setPassword, bind, Except.bind, pure, Except.pure] at h
  split at h
  · cases h
  · rename_i e1 h1
    cases h
    exact (show (Entry.setItem U e1 _ _).dn = e1.dn from rfl).trans (all _ _ _ _ h1)

/-- Changing the attributes of an entry leaves the tree as it is. -/
theorem set_inv {h : Heap} (hv : Inv h) {root : Nat} (hr : Rooted h root) {i : Nat} {n : Node} (hn : h[i]? = some n) {e : Entry}
    (he : e.dn = n.entry.dn) : Inv (h.set i { n with entry := e }) ∧ Rooted (h.set i { n with entry := e }) root := by
  have get : ∀ (j : Nat) (m : Node), (h.set i { n with entry := e })[j]? = some m → ∃ m' : Node, h[j]? = some m' ∧ m.children = m'.children ∧
      m.parent = m'.parent ∧ m.entry.dn = m'.entry.dn := by
    intro j m hm
    rw [List.getElem?_set] at hm
    split at hm
    · rename_i hij
      subst hij
      split at hm
      · cases hm; exact ⟨n, hn, rfl, rfl, he⟩
      · cases hm
    · exact ⟨m, hm, rfl, rfl, rfl⟩
  have put : ∀ (j : Nat) (m : Node), h[j]? = some m → ∃ m' : Node, (h.set i { n with entry := e })[j]? = some m' ∧ m'.children = m.children ∧
      m'.parent = m.parent ∧ m'.entry.dn = m.entry.dn := by
    intro j m hm
    rw [List.getElem?_set]
    split
    · rename_i hij
      subst hij
      rw [hn] at hm; cases hm
      have hlt : i < h.length := (List.getElem?_eq_some_iff.mp hn).1
      exact ⟨{ n with entry := e }, by simp [hlt], rfl, rfl, he⟩
    · exact ⟨m, hm, rfl, rfl, rfl⟩
  refine ⟨⟨fun j m k c hm hc => ?_, fun j m hm => ?_⟩, ?_⟩
  · obtain ⟨m', hm', e1, _, e3⟩ := get j m hm
    rw [e1] at hc
    obtain ⟨hlt, q, r, hq, hp, hd, hk⟩ := hv.links j m' k c hm' hc
    obtain ⟨q', hq', _, g2, g3⟩ := put c q hq
    exact ⟨hlt, q', r, hq', g2.trans hp, by rw [g3, hd, e3], hk⟩
  · obtain ⟨m', hm', e1, _⟩ := get j m hm
    rw [e1]; exact hv.siblings j m' hm'
  · obtain ⟨m, hm, hp⟩ := hr
    obtain ⟨m', hm', _, e2, _⟩ := put root m hm
    exact ⟨m', hm', e2.trans hp⟩

def IsModifyDN : Obj → Prop
  | .modifyDN .. => True
  | _ => False

theorem delete_inv {env : Env} {h : Heap} {dn : PyVal} {cs} {r : Heap × Obj} (hv : Inv h) (hr : Rooted h 0)
    (hd : handleDelete env h dn cs = .ok r) : Inv r.1 ∧ Rooted r.1 0 := by
  simp only [handleDelete, bind, Except.bind, pure, Except.pure] at hd
  split at hd
  · cases hd
  · split at hd
    · cases hd
    · split at hd
      · cases hd
      · rename_i i hi
        split at hd
        · rename_i x hx
          cases hd
          have := callStep_inv (U := env.U) hv hr (.delete i)
          simpa only [callStep, hx] using this
        · cases hd

theorem add_inv {env : Env} {h : Heap} {entry : PyVal} {attrs : Obj} {cs} {r : Heap × Obj} (hv : Inv h) (hr : Rooted h 0)
    (hd : handleAdd env h entry attrs cs = .ok r) : Inv r.1 ∧ Rooted r.1 0 := by
  simp only [handleAdd, bind, Except.bind, pure, Except.pure] at hd
  split at hd
  · cases hd
  · split at hd
    · cases hd
    · rename_i as _
      split at hd
      · cases hd
      · split at hd
        · cases hd
        · split at hd
          · cases hd
          · rename_i p _
            split at hd
            · cases hd
            · rename_i rdn _
              split at hd
              · cases hd
              · rename_i x hx
                cases hd
                have hx' : Tree.addChild env.U h p rdn as = .ok x := by
                  unfold lift at hx
                  split at hx <;> cases hx
                  assumption
                have := callStep_inv (U := env.U) hv hr (.add p rdn as)
                simpa only [callStep, hx'] using this

theorem extended_inv {env : Env} {luck : Luck} {st : State} {n v : PyVal} {cs} {r : Heap × Obj} (hv : Inv st.heap)
    (hr : Rooted st.heap 0) (hd : handleExtended env luck st n v cs = .ok r) : Inv r.1 ∧ Rooted r.1 0 := by
  simp only [handleExtended, bind, Except.bind, pure, Except.pure] at hd
  split at hd
  · cases hd
  · split at hd
    · split at hd
      · split at hd
        · cases hd
        · split at hd
          · split at hd
            · rename_i h hh
              cases hd
              unfold passwordModify at hh
              split at hh
              · cases hh
              · split at hh
                · cases hh
                · split at hh
                  · cases hh
                  · split at hh
                    · cases hh
                    · split at hh
                      · split at hh
                        · cases hh
                        · rename_i hn
                          split at hh
                          · rename_i he
                            cases hh
                            exact set_inv hv hr hn (setPassword_dn he)
                          · cases hh
                      · cases hh
            · cases hd; exact ⟨hv, hr⟩
            · cases hd
          · cases hd
      · cases hd
    · split at hd <;> cases hd

theorem modify_inv {env : Env} {h : Heap} {object : PyVal} {mods : List Obj} {cs} (hv : Inv h) (hr : Rooted h 0) :
    Inv (handleModify env h object mods cs).1 ∧ Rooted (handleModify env h object mods cs).1 0 := by
  unfold handleModify
  split
  · exact ⟨hv, hr⟩
  · rename_i i ms _
    cases hn : h[i]? with
    | none => exact ⟨hv, hr⟩
    | some n =>
      have hd := patchAll_dn (U := env.U) ms n.entry
      cases hp : Delta.patchAll env.U ms n.entry with
      | mk e x =>
        rw [hp] at hd
        cases x <;> simp only [hp] <;> exact set_inv hv hr hn hd

/-- Requests other than ModifyDN keep the tree in order. -/
theorem call_inv {env : Env} {luck : Luck} {st : State} {id : PyVal} {request : Obj} {cs} (hv : Inv st.heap)
    (hr : Rooted st.heap 0) (hm : ¬ IsModifyDN request) :
    Inv (call env luck st id request cs).state.heap ∧ Rooted (call env luck st id request cs).state.heap 0 := by
  simp only [call]
  split
  · split <;> exact ⟨hv, hr⟩
  · exact ⟨hv, hr⟩
  · split <;> exact ⟨hv, hr⟩
  · split <;> exact ⟨hv, hr⟩
  · unfold onHeap
    split
    · rename_i h; exact delete_inv hv hr h
    · exact ⟨hv, hr⟩
  · unfold onHeap
    split
    · rename_i h; exact add_inv hv hr h
    · exact ⟨hv, hr⟩
  · exact absurd True.intro hm
  · have hmod := modify_inv (env := env) (cs := cs) hv hr (object := ‹PyVal›) (mods := ‹List Obj›)
    split <;> rename_i h <;> rw [h] at hmod <;> exact hmod
  · unfold onHeap
    split
    · rename_i h; exact extended_inv hv hr h
    · exact ⟨hv, hr⟩
  · exact ⟨hv, hr⟩

end Verif.Server
