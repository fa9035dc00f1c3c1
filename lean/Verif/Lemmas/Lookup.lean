import Verif.Lemmas.Tree
import Verif.Lemmas.Dn
import Verif.Lemmas.DnOrder
import Verif.Spec.Dn
/-
Looking up a DN in a consistent tree, and what adding and removing do to the entries that belong to it.
-/
namespace Verif.Tree
open Verif.Dn Verif.Spec

variable {U : Unicode} {h : Heap}

theorem dnOf_eq {i : Nat} {n : Node} (hn : h[i]? = some n) : dnOf h i = n.entry.dn := by simp [dnOf, hn]

theorem _root_.Verif.Spec.ChildAs.lt_length {i c : Nat} {k : Str} (hv : Inv h) (hc : ChildAs h i k c) : c < h.length := by
  obtain ⟨n, hn, hm⟩ := hc
  obtain ⟨_, m, _, hm', _⟩ := hv.links i n k c hn hm
  exact (List.getElem?_eq_some_iff.mp hm').1

theorem _root_.Verif.Spec.ChildAs.dn {i c : Nat} {k : Str} (hv : Inv h) (hc : ChildAs h i k c) :
    ∃ rdn, dnOf h c = rdn :: dnOf h i ∧ k = Rdn.text rdn := by
  obtain ⟨n, hn, hm⟩ := hc
  obtain ⟨_, m, r, hm', _, hd, hk⟩ := hv.links i n k c hn hm
  exact ⟨r, by rw [dnOf_eq hm', dnOf_eq hn, hd], hk⟩

theorem Inv.path_dn (hv : Inv h) {i j : Nat} {l : List Nat} (hp : Path h i l j) :
    ∃ rdns : List Rdn, dnOf h j = rdns ++ dnOf h i ∧ rdns.length = l.length := by
  induction hp with
  | here i => exact ⟨[], rfl, rfl⟩
  | @down i c j k l hc _ ih =>
    obtain ⟨r, hd, _⟩ := hc.dn hv
    obtain ⟨rdns, e, hl⟩ := ih
    exact ⟨rdns ++ [r], by rw [e, hd]; simp, by simp [hl]⟩

theorem _root_.Verif.Spec.Below.refl (i : Nat) : Below h i i := ⟨[], .here i⟩

theorem _root_.Verif.Spec.Below.length_eq (hv : Inv h) {i j : Nat} (hb : Below h i j) (e : (dnOf h j).length = (dnOf h i).length) : j = i := by
  obtain ⟨l, hp⟩ := hb
  obtain ⟨rdns, hd, hl⟩ := hv.path_dn hp
  have : l = [] := by
    rw [hd, List.length_append] at e
    exact List.length_eq_zero_iff.mp (by omega)
  subst this
  cases hp
  rfl

theorem foldDn_length (d : Dn) : (foldDn U d).length = d.length := by simp [foldDn]

theorem foldDn_append (d d' : Dn) : foldDn U (d ++ d') = foldDn U d ++ foldDn U d' := by simp [foldDn]

theorem _root_.Verif.Spec.Below.suffix (hv : Inv h) {i j : Nat} (hb : Below h i j) : foldDn U (dnOf h i) <:+ foldDn U (dnOf h j) := by
  obtain ⟨l, hp⟩ := hb
  obtain ⟨rdns, hd, _⟩ := hv.path_dn hp
  exact ⟨foldDn U rdns, by rw [hd, foldDn_append]⟩

theorem _root_.Verif.Spec.Below.lt_length (hv : Inv h) {i j : Nat} (hb : Below h i j) (hi : i < h.length) : j < h.length := by
  obtain ⟨l, hp⟩ := hb
  rcases path_snoc hp with ⟨rfl, rfl⟩ | ⟨_, _, _, _, _, hc⟩
  · exact hi
  · exact hc.lt_length hv

/-- No two children of an entry have equal DNs. -/
def Distinct (U : Unicode) (h : Heap) : Prop :=
  ∀ i k k' c c', ChildAs h i k c → ChildAs h i k' c' → foldDn U (dnOf h c) = foldDn U (dnOf h c') → c = c'

/-- What looking up relies on: the DN of a child is one RDN longer than the DN of its parent. -/
def Linked (U : Unicode) (h : Heap) : Prop :=
  ∀ i k c, ChildAs h i k c → c < h.length ∧ ∃ r, foldDn U (dnOf h c) = r :: foldDn U (dnOf h i)

theorem Inv.linked (hv : Inv h) : Linked U h := by
  intro i k c hc
  obtain ⟨r, e, _⟩ := hc.dn hv
  exact ⟨hc.lt_length hv, foldRdn U r, by rw [e]; rfl⟩

theorem Linked.path_dn (hv : Linked U h) {i j : Nat} {l : List Nat} (hp : Path h i l j) :
    ∃ rs, foldDn U (dnOf h j) = rs ++ foldDn U (dnOf h i) ∧ rs.length = l.length := by
  induction hp with
  | here i => exact ⟨[], rfl, rfl⟩
  | @down i c j k l hc _ ih =>
    obtain ⟨_, r, e⟩ := hv i k c hc
    obtain ⟨rs, e', hl⟩ := ih
    exact ⟨rs ++ [r], by rw [e', e]; simp, by simp [hl]⟩

theorem Linked.suffix (hv : Linked U h) {i j : Nat} (hb : Below h i j) : foldDn U (dnOf h i) <:+ foldDn U (dnOf h j) := by
  obtain ⟨l, hp⟩ := hb
  obtain ⟨rs, e, _⟩ := hv.path_dn hp
  exact ⟨rs, e.symm⟩

theorem Linked.length_eq (hv : Linked U h) {i j : Nat} (hb : Below h i j)
    (e : (foldDn U (dnOf h j)).length = (foldDn U (dnOf h i)).length) : j = i := by
  obtain ⟨l, hp⟩ := hb
  obtain ⟨rs, hd, hl⟩ := hv.path_dn hp
  have : l = [] := by
    rw [hd, List.length_append] at e
    exact List.length_eq_zero_iff.mp (by omega)
  subst this
  cases hp
  rfl

theorem nodup_bound : ∀ (n : Nat) (l : List Nat), l.Nodup → (∀ x ∈ l, x < n) → l.length ≤ n := by
  intro n
  induction n with
  | zero =>
    intro l _ hb
    cases l with
    | nil => simp
    | cons x l => have := hb x (by simp); omega
  | succ n ih =>
    intro l hn hb
    have h1 : (l.erase n).length ≤ n := ih _ (List.Nodup.sublist List.erase_sublist hn) (fun x hx => by
      have hx' := (hn.mem_erase_iff).mp hx
      have := hb x hx'.2
      have := hx'.1
      omega)
    have h2 : l.length ≤ (l.erase n).length + 1 := by
      rw [List.length_erase]
      split <;> omega
    omega

/-- A way down passes no node twice, hence is not longer than the heap. -/
theorem Linked.path_nodup (hv : Linked U h) {i j : Nat} {l : List Nat} (hp : Path h i l j) :
    l.Nodup ∧ ∀ x ∈ l, x < h.length ∧ (foldDn U (dnOf h i)).length < (foldDn U (dnOf h x)).length := by
  induction hp with
  | here i => simp
  | @down i c j k l hc _ ih =>
    obtain ⟨hl, r, e⟩ := hv i k c hc
    obtain ⟨h1, h2⟩ := ih
    have hlt : (foldDn U (dnOf h i)).length < (foldDn U (dnOf h c)).length := by rw [e]; simp
    refine ⟨List.nodup_cons.mpr ⟨fun hm => ?_, h1⟩, fun x hx => ?_⟩
    · have := (h2 c hm).2; omega
    · rcases List.mem_cons.mp hx with e' | hx
      · subst e'; exact ⟨hl, hlt⟩
      · have := h2 x hx; exact ⟨this.1, by omega⟩

theorem Linked.path_length (hv : Linked U h) {i j : Nat} {l : List Nat} (hp : Path h i l j) : l.length ≤ h.length :=
  nodup_bound _ l (hv.path_nodup hp).1 fun x hx => ((hv.path_nodup hp).2 x hx).1

theorem lookupLoop_iff (hv : Linked U h) (hd : Distinct U h) (dn : Dn) : ∀ (fuel i : Nat), i < h.length →
    (∀ j l, Path h i l j → l.length < fuel) →
    (∀ j, lookupLoop U h fuel i dn = .ok j ↔ Below h i j ∧ foldDn U (dnOf h j) = foldDn U dn) ∧
      ∀ x, lookupLoop U h fuel i dn = .error x → x = .noSuchObject := by
  intro fuel
  induction fuel with
  | zero => intro i h1 h2; have := h2 i [] (.here i); simp at this
  | succ fuel ih =>
    intro i hi hf
    obtain ⟨n, hn⟩ : ∃ n, h[i]? = some n := ⟨h[i], List.getElem?_eq_getElem hi⟩
    have hni := dnOf_eq hn
    simp only [lookupLoop, hn]
    by_cases h1 : Dn.contains U n.entry.dn dn = true
    · rw [if_neg (by simp [h1])]
      have h1' := (contains_iff U _ _).mp h1
      rw [← hni] at h1'
      by_cases h2 : Dn.eq U dn n.entry.dn = true
      · rw [if_pos h2]
        have h2' := (Dn.eq_iff U _ _).mp h2
        rw [← hni] at h2'
        refine ⟨fun j => ⟨fun e => ?_, fun ⟨hb, e⟩ => ?_⟩, fun x hx => by cases hx⟩
        · cases e; exact ⟨.refl i, h2'.symm⟩
        · rw [h2'] at e
          rw [hv.length_eq hb (congrArg List.length e)]
      · rw [if_neg h2]
        have h2' : foldDn U dn ≠ foldDn U (dnOf h i) := by
          intro e; exact h2 ((Dn.eq_iff U _ _).mpr (by rw [e, hni]))
        have step : ∀ j, Below h i j → foldDn U (dnOf h j) = foldDn U dn →
            ∃ k c, (k, c) ∈ n.children ∧ Below h c j ∧ Dn.contains U (dnOf h c) dn = true := by
          rintro j ⟨l, hp⟩ e
          cases hp with
          | here => exact absurd e.symm h2'
          | @down _ c _ k l hc hp =>
            refine ⟨k, c, ?_, ⟨l, hp⟩, (contains_iff U _ _).mpr ?_⟩
            · obtain ⟨n', hn', hm⟩ := hc
              rw [hn] at hn'; cases hn'; exact hm
            · rw [← e]; exact hv.suffix ⟨l, hp⟩
        split
        · rename_i p hp
          obtain ⟨k, c⟩ := p
          have hm := List.mem_of_find?_eq_some hp
          have hc1 := List.find?_some hp
          simp only at hc1
          have hch : ChildAs h i k c := ⟨n, hn, hm⟩
          obtain ⟨ih1, ih2⟩ := ih c (hv i k c hch).1 (fun j l hl => by
            have := hf j _ (.down hch hl)
            simp only [List.length_cons] at this
            omega)
          refine ⟨fun j => ?_, ih2⟩
          rw [ih1 j]
          constructor
          · rintro ⟨⟨l, hpj⟩, e⟩; exact ⟨⟨c :: l, .down hch hpj⟩, e⟩
          · rintro ⟨hb, e⟩
            refine ⟨?_, e⟩
            obtain ⟨k', c', hm', hb', hc'⟩ := step j hb e
            have hch' : ChildAs h i k' c' := ⟨n, hn, hm'⟩
            have : c = c' := by
              refine hd i k k' c c' hch hch' ?_
              rw [contains_iff] at hc1 hc'
              obtain ⟨_, r, e1⟩ := hv i k c hch
              obtain ⟨_, r', e1'⟩ := hv i k' c' hch'
              refine (List.suffix_of_suffix_length_le hc1 hc' ?_).eq_of_length ?_ <;> simp [e1, e1']
            rw [this]; exact hb'
        · rename_i hp
          refine ⟨fun j => ⟨fun e => (by cases e), fun ⟨hb, e⟩ => ?_⟩, fun x hx => by cases hx; rfl⟩
          obtain ⟨k', c', hm', hb', hc'⟩ := step j hb e
          have := List.find?_eq_none.mp hp (k', c') hm'
          simp [hc'] at this
    · rw [if_pos (by simpa using h1)]
      refine ⟨fun j => ⟨fun e => (by cases e), fun ⟨hb, e⟩ => ?_⟩, fun x hx => by cases hx; rfl⟩
      refine absurd ((contains_iff U _ _).mpr ?_) h1
      rw [← hni, ← e]
      exact hv.suffix hb

theorem Linked.lookup_iff (hv : Linked U h) (hd : Distinct U h) {i : Nat} (hi : i < h.length) (dn : Dn) (j : Nat) :
    lookup U h i dn = .ok j ↔ Below h i j ∧ foldDn U (dnOf h j) = foldDn U dn :=
  (lookupLoop_iff hv hd dn (h.length + 1) i hi (fun _ _ hl => by have := hv.path_length hl; omega)).1 j

theorem Linked.lookup_error (hv : Linked U h) (hd : Distinct U h) {i : Nat} (hi : i < h.length) {dn : Dn}
    (hn : ∀ j, Below h i j → foldDn U (dnOf h j) ≠ foldDn U dn) : lookup U h i dn = .error .noSuchObject := by
  obtain ⟨h1, h2⟩ := lookupLoop_iff hv hd dn (h.length + 1) i hi (fun _ _ hl => by have := hv.path_length hl; omega)
  unfold lookup
  cases e : lookupLoop U h (h.length + 1) i dn with
  | ok j => obtain ⟨hb, he⟩ := (h1 j).mp e; exact absurd he (hn j hb)
  | error x => rw [h2 x e]

theorem lookup_iff (hv : Inv h) (hd : Distinct U h) {i : Nat} (hi : i < h.length) (dn : Dn) (j : Nat) :
    lookup U h i dn = .ok j ↔ Below h i j ∧ foldDn U (dnOf h j) = foldDn U dn :=
  (Inv.linked hv).lookup_iff hd hi dn j

theorem lookup_error (hv : Inv h) (hd : Distinct U h) {i : Nat} (hi : i < h.length) {dn : Dn}
    (hn : ∀ j, Below h i j → foldDn U (dnOf h j) ≠ foldDn U dn) : lookup U h i dn = .error .noSuchObject :=
  (Inv.linked hv).lookup_error hd hi hn

/-- Entries of the tree are told apart by their DNs. -/
theorem below_unique (hv : Inv h) (hd : Distinct U h) {i : Nat} (hi : i < h.length) {j j' : Nat} (hj : Below h i j) (hj' : Below h i j')
    (e : foldDn U (dnOf h j) = foldDn U (dnOf h j')) : j = j' := by
  have h1 := (lookup_iff hv hd hi (dnOf h j') j).mpr ⟨hj, e⟩
  have h2 := (lookup_iff hv hd hi (dnOf h j') j').mpr ⟨hj', rfl⟩
  rw [h1] at h2
  exact Except.ok.inj h2

/-! Naming. -/

/-- RDNs that come from text and are spelled in one way. -/
structure Spelled (U : Unicode) (R : Rdn → Prop) : Prop where
  plain : ∀ r, R r → ∀ a ∈ r, Ava.Plain a
  alike : ∀ r r', R r → R r' → foldRdn U r = foldRdn U r' → r = r'

theorem Spelled.text_inj {R : Rdn → Prop} (hR : Spelled U R) {r r' : Rdn} (h1 : R r) (h2 : R r') (e : r.text = r'.text) : r = r' := by
  have e1 := Rdn.parse_text U r (hR.plain r h1)
  have e2 := Rdn.parse_text U r' (hR.plain r' h2)
  rw [e, e2] at e1
  exact (Except.ok.inj e1).symm

/-- The RDNs of all entries that have a parent are among the given ones. -/
def Named (R : Rdn → Prop) (h : Heap) : Prop :=
  ∀ i k c rdn d, ChildAs h i k c → dnOf h c = rdn :: d → R rdn

theorem Named.distinct {R : Rdn → Prop} (hn : Named R h) (hR : Spelled U R) (hv : Inv h) : Distinct U h := by
  intro i k k' c c' hc hc' e
  obtain ⟨r, e1, hk⟩ := hc.dn hv
  obtain ⟨r', e1', hk'⟩ := hc'.dn hv
  rw [e1, e1'] at e
  simp only [foldDn, List.map_cons, List.cons.injEq] at e
  have := hR.alike r r' (hn i k c r _ hc e1) (hn i k' c' r' _ hc' e1') e.1
  rw [this, ← hk'] at hk
  subst hk
  obtain ⟨n, hn1, hm⟩ := hc
  obtain ⟨n', hn1', hm'⟩ := hc'
  rw [hn1] at hn1'
  cases hn1'
  exact key_unique (hv.siblings i n hn1) hm hm'

/-! What adding does. -/

section grow
variable {p : Nat} {n new : Node} {k : Str}

theorem grow_childAs (hn : h[p]? = some n) (hnew : new.children = []) {i c : Nat} {k' : Str} :
    ChildAs (grow h p n k new) i k' c ↔ ChildAs h i k' c ∨ (i = p ∧ k' = k ∧ c = h.length) := by
  constructor
  · rintro ⟨m, hm, hc⟩
    rcases grow_cases hn hm with ⟨rfl, rfl⟩ | ⟨rfl, rfl⟩ | ⟨_, hm'⟩
    · rw [hnew] at hc; cases hc
    · simp only [List.mem_append, List.mem_singleton, Prod.mk.injEq] at hc
      rcases hc with hc | ⟨rfl, rfl⟩
      · exact .inl ⟨n, hn, hc⟩
      · exact .inr ⟨rfl, rfl, rfl⟩
    · exact .inl ⟨m, hm', hc⟩
  · rintro (⟨m, hm, hc⟩ | ⟨rfl, rfl, rfl⟩)
    · by_cases e : i = p
      · subst e
        rw [hn] at hm; cases hm
        exact ⟨_, grow_at hn, by simp [hc]⟩
      · exact ⟨m, grow_other e hm, hc⟩
    · exact ⟨_, grow_at hn, by simp⟩

theorem grow_dnOf (hn : h[p]? = some n) {i : Nat} (hi : i < h.length) : dnOf (grow h p n k new) i = dnOf h i := by
  obtain ⟨m, hm⟩ : ∃ m, h[i]? = some m := ⟨h[i], List.getElem?_eq_getElem hi⟩
  obtain ⟨m', hm', _, e⟩ := grow_old (k := k) (new := new) hn hm
  rw [dnOf_eq hm', dnOf_eq hm, e]

theorem grow_below (hv : Inv h) (hn : h[p]? = some n) (hnew : new.children = []) {i j : Nat} (hi : i < h.length) :
    Below (grow h p n k new) i j ↔ Below h i j ∨ (j = h.length ∧ Below h i p) := by
  constructor
  · rintro ⟨l, hp⟩
    induction hp with
    | here i => exact .inl (.refl i)
    | @down i c j k' l hc hp ih =>
      rcases (grow_childAs hn hnew).mp hc with hc | ⟨rfl, rfl, rfl⟩
      · rcases ih (hc.lt_length hv) with ⟨l', hp'⟩ | ⟨rfl, l', hp'⟩
        · exact .inl ⟨_, .down hc hp'⟩
        · exact .inr ⟨rfl, _, .down hc hp'⟩
      · cases hp with
        | here => exact .inr ⟨rfl, .refl _⟩
        | @down _ c _ k'' _ hc' hp' =>
          rcases (grow_childAs hn hnew).mp hc' with ⟨m, hm, _⟩ | ⟨e, _⟩
          · have := (List.getElem?_eq_some_iff.mp hm).1; omega
          · omega
  · rintro (⟨l, hp⟩ | ⟨rfl, l, hp⟩)
    · clear hi
      induction hp with
      | here i => exact .refl i
      | down hc _ ih =>
        obtain ⟨l', hp'⟩ := ih
        exact ⟨_, .down ((grow_childAs hn hnew).mpr (.inl hc)) hp'⟩
    · clear hi
      induction hp with
      | here i => exact ⟨_, .down ((grow_childAs hn hnew).mpr (.inr ⟨rfl, rfl, rfl⟩)) (.here _)⟩
      | down hc _ ih =>
        obtain ⟨l', hp'⟩ := ih hn
        exact ⟨_, .down ((grow_childAs hn hnew).mpr (.inl hc)) hp'⟩

end grow

/-! What removing does. -/

section prune
variable {p : Nat} {n : Node} {k : Str}

theorem prune_childAs (hn : h[p]? = some n) {i c : Nat} {k' : Str} :
    ChildAs (prune h p n k) i k' c ↔ ChildAs h i k' c ∧ ¬(i = p ∧ k' = k) := by
  by_cases e : i = p
  · subst e
    constructor
    · rintro ⟨m, hm, hc⟩
      rw [prune_at hn] at hm
      cases hm
      simp only [List.mem_filter, decide_eq_true_eq] at hc
      exact ⟨⟨n, hn, hc.1⟩, fun x => hc.2 x.2⟩
    · rintro ⟨⟨m, hm, hc⟩, hne⟩
      rw [hn] at hm; cases hm
      exact ⟨_, prune_at hn, by simp only [List.mem_filter, decide_eq_true_eq]; exact ⟨hc, fun x => hne ⟨rfl, x⟩⟩⟩
  · unfold ChildAs
    rw [prune_other e]
    exact ⟨fun x => ⟨x, fun y => e y.1⟩, fun x => x.1⟩

theorem prune_dnOf (hn : h[p]? = some n) {i : Nat} : dnOf (prune h p n k) i = dnOf h i := by
  by_cases e : i = p
  · subst e; rw [dnOf_eq (prune_at hn), dnOf_eq hn]
  · simp only [dnOf, prune_other e]

/-- Everything below the removed entry is gone, all else stays. -/
theorem prune_below (hv : Inv h) (hn : h[p]? = some n) {c : Nat} (hc : (k, c) ∈ n.children) {i j : Nat} (hi : ¬ Below h c i) :
    Below (prune h p n k) i j ↔ Below h i j ∧ ¬ Below h c j := by
  have hpc : ChildAs h p k c := ⟨n, hn, hc⟩
  constructor
  · rintro ⟨l, hp⟩
    induction hp with
    | here i => exact ⟨.refl i, hi⟩
    | @down i d j k' l hd hp ih =>
      obtain ⟨hd', hne⟩ := (prune_childAs hn).mp hd
      clear hd
      have hd := hd'
      have hcd : ¬ Below h c d := by
        rintro ⟨m, hm⟩
        rcases path_snoc hm with ⟨rfl, rfl⟩ | ⟨m', q, k'', rfl, hm', hq⟩
        · have e := hv.parent hd hpc
          subst e
          obtain ⟨r, e1, e2⟩ := hd.dn hv
          obtain ⟨r', e1', e2'⟩ := hpc.dn hv
          rw [e1] at e1'
          exact hne ⟨rfl, by rw [e2, e2', (List.cons.inj e1').1]⟩
        · have e := hv.parent hd hq
          subst e
          exact hi ⟨m', hm'⟩
      obtain ⟨⟨l', hp'⟩, hb⟩ := ih hcd
      exact ⟨⟨_, .down hd hp'⟩, hb⟩
  · rintro ⟨⟨l, hp⟩, hb⟩
    induction hp with
    | here i => exact .refl i
    | @down i d j k' l hd hp ih =>
      by_cases hcd : Below h c d
      · obtain ⟨m, hm⟩ := hcd
        exact absurd ⟨_, path_append hm hp⟩ hb
      · obtain ⟨l', hp'⟩ := ih hcd hb
        refine ⟨_, .down ((prune_childAs hn).mpr ⟨hd, ?_⟩) hp'⟩
        rintro ⟨rfl, rfl⟩
        apply hcd
        have : d = c := by
          obtain ⟨m, hm, hd⟩ := hd
          rw [hn] at hm; cases hm
          exact (key_unique (hv.siblings i n hn) hc hd).symm
        rw [this]; exact .refl c

end prune

theorem grow_named {R : Rdn → Prop} {p : Nat} {n : Node} {rdn : Rdn} {as : Attrs} (hN : Named R h) (hv : Inv h)
    (hn : h[p]? = some n) (hr : R rdn) : Named R (grow h p n rdn.text ⟨⟨rdn :: n.entry.dn, as⟩, some p, []⟩) := by
  intro i k c r d hc hd
  rcases (grow_childAs hn rfl).mp hc with hc | ⟨rfl, rfl, rfl⟩
  · rw [grow_dnOf hn (hc.lt_length hv)] at hd
    exact hN i k c r d hc hd
  · rw [dnOf_eq grow_new] at hd
    exact (List.cons.inj hd).1 ▸ hr

theorem prune_named {R : Rdn → Prop} {p : Nat} {n : Node} {k : Str} (hN : Named R h) (hn : h[p]? = some n) :
    Named R (prune h p n k) := by
  intro i k c r d hc hd
  rw [prune_dnOf hn] at hd
  exact hN i k c r d ((prune_childAs hn).mp hc).1 hd

end Verif.Tree
