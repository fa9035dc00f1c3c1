import Verif.Lemmas.Lookup
import Verif.Spec.Directory
/-
The in-memory tree does what the finite map does.
-/
namespace Verif.Tree
open Verif.Dn Verif.Spec

/-- A request on the tree: look the entry up from the root, then call the method. -/
def request (U : Unicode) (h : Heap) : Request → Heap × Option PyErr
  | .add parent rdn as =>
    match lookup U h 0 parent with
    | .error x => (h, some x)
    | .ok p => match addChild U h p rdn as with | .ok r => (r.1, none) | .error x => (h, some x)
  | .delete dn =>
    match lookup U h 0 dn with
    | .error x => (h, some x)
    | .ok i => match delete h i with | .ok r => (r.1, none) | .error x => (h, some x)
  | .deleteChild parent rdn =>
    match lookup U h 0 parent with
    | .error x => (h, some x)
    | .ok p => match deleteChild h p rdn with | .ok r => (r.1, none) | .error x => (h, some x)

/-- The tree and the answers after a number of requests. -/
def requests (U : Unicode) : Heap → List Request → Heap × List (Option PyErr)
  | h, [] => (h, [])
  | h, r :: rs =>
    match request U h r with
    | (h', x) => match requests U h' rs with | (h'', xs) => (h'', x :: xs)

variable {U : Unicode} {h : Heap} {D : Directory} {R : Rdn → Prop}

theorem has_iff {x : Name} : D.has x = true ↔ ∃ as, (x, as) ∈ D := by
  simp only [Directory.has, List.any_eq_true, beq_iff_eq]
  constructor
  · rintro ⟨⟨y, as⟩, hm, rfl⟩; exact ⟨as, hm⟩
  · rintro ⟨as, hm⟩; exact ⟨_, hm, rfl⟩

theorem hasChild_iff {x : Name} : D.hasChild x = true ↔ ∃ r as, (r :: x, as) ∈ D := by
  simp only [Directory.hasChild, List.any_eq_true, Bool.and_eq_true, bne_iff_ne, beq_iff_eq]
  constructor
  · rintro ⟨⟨y, as⟩, hm, h1, h2⟩
    cases y with
    | nil => exact absurd rfl h1
    | cons r y => simp only [List.tail_cons] at h2; subst h2; exact ⟨r, as, hm⟩
  · rintro ⟨r, as, hm⟩; exact ⟨_, hm, by simp, rfl⟩

/-- The tree holds the entries of the map. -/
structure Sim (U : Unicode) (R : Rdn → Prop) (root : Name) (h : Heap) (D : Directory) : Prop where
  inv : Inv h
  rooted : Rooted h 0
  named : Named R h
  nodup : (D.map (·.1)).Nodup
  rootName : foldDn U (dnOf h 0) = root
  sound : ∀ j n, Below h 0 j → h[j]? = some n → ∃ as, (foldDn U n.entry.dn, as) ∈ D ∧ n.entry.attrs = buildAttrs U as
  complete : ∀ x as, (x, as) ∈ D → ∃ j n, Below h 0 j ∧ h[j]? = some n ∧ foldDn U n.entry.dn = x ∧
    n.entry.attrs = buildAttrs U as

variable {root : Name}

theorem Sim.pos (hs : Sim U R root h D) : 0 < h.length := by
  obtain ⟨n, hn, _⟩ := hs.rooted
  exact (List.getElem?_eq_some_iff.mp hn).1

theorem Sim.has (hs : Sim U R root h D) {x : Name} : D.has x = true ↔ ∃ j, Below h 0 j ∧ foldDn U (dnOf h j) = x := by
  rw [has_iff]
  constructor
  · rintro ⟨as, hm⟩
    obtain ⟨j, n, hb, hn, e, _⟩ := hs.complete x as hm
    exact ⟨j, hb, by rw [dnOf_eq hn, e]⟩
  · rintro ⟨j, hb, rfl⟩
    have hj := hb.lt_length hs.inv hs.pos
    obtain ⟨as, hm, _⟩ := hs.sound j h[j] hb (List.getElem?_eq_getElem hj)
    exact ⟨as, by rw [dnOf_eq (List.getElem?_eq_getElem hj)]; exact hm⟩

theorem Sim.lookup_has (hs : Sim U R root h D) (hR : Spelled U R) {dn : Dn} (hh : D.has (foldDn U dn) = true) :
    ∃ j n, lookup U h 0 dn = .ok j ∧ h[j]? = some n ∧ Below h 0 j ∧ foldDn U n.entry.dn = foldDn U dn := by
  obtain ⟨j, hb, e⟩ := hs.has.mp hh
  have hj := hb.lt_length hs.inv hs.pos
  refine ⟨j, h[j], (lookup_iff hs.inv (hs.named.distinct hR hs.inv) hs.pos dn j).mpr ⟨hb, e⟩, List.getElem?_eq_getElem hj, hb, ?_⟩
  rw [← e, dnOf_eq (List.getElem?_eq_getElem hj)]

theorem Sim.lookup_not (hs : Sim U R root h D) (hR : Spelled U R) {dn : Dn} (hh : ¬ D.has (foldDn U dn) = true) :
    lookup U h 0 dn = .error .noSuchObject := by
  refine lookup_error hs.inv (hs.named.distinct hR hs.inv) hs.pos fun j hb e => hh (hs.has.mpr ⟨j, hb, e⟩)

theorem Sim.unique (hs : Sim U R root h D) (hR : Spelled U R) {j j' : Nat} (hj : Below h 0 j) (hj' : Below h 0 j')
    (e : foldDn U (dnOf h j) = foldDn U (dnOf h j')) : j = j' :=
  below_unique hs.inv (hs.named.distinct hR hs.inv) hs.pos hj hj' e

/-- The child of an entry with a given RDN. -/
theorem Sim.child (hs : Sim U R root h D) (hR : Spelled U R) {p : Nat} {n : Node} (hn : h[p]? = some n) (hp : Below h 0 p)
    {r : List (Str × Str)} :
    D.has (r :: foldDn U n.entry.dn) = true ↔ ∃ k c rdn, (k, c) ∈ n.children ∧ dnOf h c = rdn :: n.entry.dn ∧
      foldRdn U rdn = r ∧ k = Rdn.text rdn ∧ R rdn := by
  rw [hs.has]
  constructor
  · rintro ⟨j, ⟨l, hl⟩, e⟩
    have h0 : foldDn U (dnOf h 0) <:+ foldDn U (dnOf h p) := hp.suffix hs.inv
    rcases path_snoc hl with ⟨rfl, rfl⟩ | ⟨m, q, k, rfl, hm, hc⟩
    · rw [e, dnOf_eq hn] at h0
      have := h0.length_le
      simp only [List.length_cons] at this
      omega
    · obtain ⟨rdn, hd, hk⟩ := hc.dn hs.inv
      rw [hd] at e
      simp only [foldDn, List.map_cons, List.cons.injEq] at e
      have : q = p := hs.unique hR ⟨m, hm⟩ hp (by rw [dnOf_eq hn]; exact e.2)
      subst this
      refine ⟨k, j, rdn, ?_, by rw [hd, dnOf_eq hn], e.1, hk, hs.named _ _ _ _ _ hc hd⟩
      obtain ⟨n', hn', hm'⟩ := hc
      rw [hn] at hn'; cases hn'; exact hm'
  · rintro ⟨k, c, rdn, hm, hd, rfl, _⟩
    obtain ⟨l, hl⟩ := hp
    exact ⟨c, ⟨_, path_append hl (.down ⟨n, hn, hm⟩ (.here c))⟩, by rw [hd]; rfl⟩

theorem lookup_some {k : Str} {c : Nat} {l : List (Str × Nat)} (hn : (l.map (·.1)).Nodup) (hm : (k, c) ∈ l) :
    l.lookup k = some c := by
  cases hl : l.lookup k with
  | some d => rw [key_unique hn hm (lookup_mem hl)]
  | none =>
    rw [List.lookup_eq_none_iff] at hl
    have := hl (k, c) hm
    simp at this

theorem Sim.key_mem (hs : Sim U R root h D) (hR : Spelled U R) {p : Nat} {n : Node} (hn : h[p]? = some n) (hp : Below h 0 p)
    {rdn : Rdn} (hr : R rdn) :
    rdn.text ∈ n.children.map (·.1) ↔ D.has (foldRdn U rdn :: foldDn U n.entry.dn) = true := by
  rw [hs.child hR hn hp]
  constructor
  · intro hm
    obtain ⟨⟨k, c⟩, hkc, e⟩ := List.mem_map.mp hm
    have hc : ChildAs h p k c := ⟨n, hn, hkc⟩
    obtain ⟨r, hd, hk⟩ := hc.dn hs.inv
    have hr' := hs.named _ _ _ _ _ hc hd
    have : r = rdn := hR.text_inj hr' hr (by rw [← hk]; exact e)
    subst this
    exact ⟨k, c, r, hkc, by rw [hd, dnOf_eq hn], rfl, hk, hr'⟩
  · rintro ⟨k, c, r, hm, _, e, hk, hr'⟩
    have := hR.alike r rdn hr' hr e
    subst this
    exact List.mem_map.mpr ⟨_, hm, hk⟩

theorem Sim.grow (hs : Sim U R root h D) {p : Nat} {n : Node} (hn : h[p]? = some n) (hp : Below h 0 p)
    {rdn : Rdn} (hr : R rdn) (as : List (PyStr × List PyStr)) (hk : rdn.text ∉ n.children.map (·.1))
    (hD : ¬ D.has (foldRdn U rdn :: foldDn U n.entry.dn) = true) :
    Sim U R root (grow h p n rdn.text ⟨⟨rdn :: n.entry.dn, buildAttrs U as⟩, some p, []⟩)
      (D ++ [(foldRdn U rdn :: foldDn U n.entry.dn, as)]) := by
  have below : ∀ j, Below (Tree.grow h p n rdn.text ⟨⟨rdn :: n.entry.dn, buildAttrs U as⟩, some p, []⟩) 0 j ↔ _ := fun j =>
    grow_below hs.inv hn rfl hs.pos
  refine ⟨grow_inv hs.inv hn hk, ?_, grow_named hs.named hs.inv hn hr, ?_, ?_, ?_, ?_⟩
  · obtain ⟨m, hm, hpar⟩ := hs.rooted
    obtain ⟨m', hm', e, _⟩ := grow_old (k := rdn.text) (new := ⟨⟨rdn :: n.entry.dn, buildAttrs U as⟩, some p, []⟩) hn hm
    exact ⟨m', hm', by rw [e, hpar]⟩
  · rw [List.map_append, List.nodup_append]
    refine ⟨hs.nodup, by simp, ?_⟩
    intro a ha b hb e
    simp only [List.map_cons, List.map_nil, List.mem_singleton] at hb
    obtain ⟨⟨a', as'⟩, hm, rfl⟩ := List.mem_map.mp ha
    simp only at e
    rw [← hb, ← e] at hD
    exact hD (has_iff.mpr ⟨as', hm⟩)
  · rw [grow_dnOf hn hs.pos]; exact hs.rootName
  · intro j m hb hm
    rcases (below j).mp hb with hb | ⟨rfl, _⟩
    · have hj := hb.lt_length hs.inv hs.pos
      obtain ⟨m', hm', _, e⟩ := grow_old (k := rdn.text) (new := ⟨⟨rdn :: n.entry.dn, buildAttrs U as⟩, some p, []⟩) hn
        (List.getElem?_eq_getElem hj)
      rw [hm] at hm'
      cases hm'
      obtain ⟨as', h1, h2⟩ := hs.sound j h[j] hb (List.getElem?_eq_getElem hj)
      rw [e]
      exact ⟨as', List.mem_append_left _ h1, h2⟩
    · rw [grow_new] at hm
      cases hm
      exact ⟨as, by simp [foldDn], rfl⟩
  · intro x as' hm
    rcases List.mem_append.mp hm with hm | hm
    · obtain ⟨j, m, hb, hj, e1, e2⟩ := hs.complete x as' hm
      obtain ⟨m', hm', _, e⟩ := grow_old (k := rdn.text) (new := ⟨⟨rdn :: n.entry.dn, buildAttrs U as⟩, some p, []⟩) hn hj
      exact ⟨j, m', (below j).mpr (.inl hb), hm', by rw [e, e1], by rw [e, e2]⟩
    · simp only [List.mem_singleton, Prod.mk.injEq] at hm
      obtain ⟨rfl, rfl⟩ := hm
      exact ⟨h.length, _, (below _).mpr (.inr ⟨rfl, hp⟩), grow_new, by simp [foldDn], rfl⟩

theorem Sim.prune (hs : Sim U R root h D) {p c : Nat} {n : Node} {k : Str} (hn : h[p]? = some n)
    (hc : (k, c) ∈ n.children) (D' : Directory) (hD : D'.Sublist D)
    (hD' : ∀ q, q ∈ D' ↔ q ∈ D ∧ ¬ ∃ j, Below h 0 j ∧ Below h c j ∧ foldDn U (dnOf h j) = q.1) (hR : Spelled U R) :
    Sim U R root (prune h p n k) D' := by
  have hch : ChildAs h p k c := ⟨n, hn, hc⟩
  have h0 : ¬ Below h c 0 := by
    rintro ⟨l, hl⟩
    have := hs.inv.path_le hl
    have := hs.inv.lt hch
    omega
  have below : ∀ j, Below (Tree.prune h p n k) 0 j ↔ _ := fun j => prune_below hs.inv hn hc h0
  refine ⟨prune_inv hs.inv hn, ?_, prune_named hs.named hn, (hD.map _).nodup hs.nodup, ?_, ?_, ?_⟩
  · obtain ⟨m, hm, hpar⟩ := hs.rooted
    obtain ⟨m', hm', e, _⟩ := prune_old (k := k) hn hm
    exact ⟨m', hm', by rw [e, hpar]⟩
  · rw [prune_dnOf hn]; exact hs.rootName
  · intro j m hb hm
    obtain ⟨hb, hnb⟩ := (below j).mp hb
    obtain ⟨m', hm', e, _⟩ := prune_cases hn hm
    obtain ⟨as, h1, h2⟩ := hs.sound j m' hb hm'
    rw [← e]
    refine ⟨as, (hD' _).mpr ⟨h1, ?_⟩, h2⟩
    rintro ⟨j', hb', hcb', e'⟩
    have : j' = j := hs.unique hR hb' hb (by rw [e', dnOf_eq hm'])
    exact hnb (this ▸ hcb')
  · intro x as hm
    obtain ⟨hm, hne⟩ := (hD' _).mp hm
    obtain ⟨j, m, hb, hj, e1, e2⟩ := hs.complete x as hm
    obtain ⟨m', hm', _, e⟩ := prune_old (k := k) hn hj
    refine ⟨j, m', (below j).mpr ⟨hb, fun hcb => hne ⟨j, hb, hcb, by rw [dnOf_eq hj, e1]⟩⟩, hm', by rw [e, e1], by rw [e, e2]⟩

/-- The RDNs that a request uses are among the given ones. -/
def Uses (R : Rdn → Prop) : Request → Prop
  | .add _ rdn _ => R rdn
  | .delete _ => True
  | .deleteChild _ rdn => R rdn

theorem step_sim (hs : Sim U R root h D) (hR : Spelled U R) (r : Request) (hr : Uses R r) :
    (request U h r).2 = (D.step U root r).2 ∧ Sim U R root (request U h r).1 (D.step U root r).1 := by
  cases r with
  | add parent rdn as =>
    simp only [request, Directory.step]
    by_cases h1 : D.has (foldDn U parent) = true
    · rw [if_neg (by simp [h1])]
      obtain ⟨p, n, hl, hn, hb, e⟩ := hs.lookup_has hR h1
      have hkey := hs.key_mem hR hn hb (rdn := rdn) hr
      rw [e] at hkey
      simp only [hl, addChild_eq hn]
      by_cases h2 : D.has (foldRdn U rdn :: foldDn U parent) = true
      · rw [if_pos h2, if_pos (hkey.mpr h2)]
        exact ⟨by simp, hs⟩
      · rw [if_neg h2, if_neg (fun x => h2 (hkey.mp x))]
        refine ⟨rfl, ?_⟩
        have := hs.grow hn hb hr as (fun x => h2 (hkey.mp x)) (by rw [e]; exact h2)
        rw [e] at this
        exact this
    · rw [if_pos (by simpa using h1), hs.lookup_not hR h1]
      exact ⟨by simp, hs⟩
  | delete dn =>
    simp only [request, Directory.step]
    by_cases h1 : D.has (foldDn U dn) = true
    · rw [if_neg (by simp [h1])]
      obtain ⟨i, n, hl, hn, hb, e⟩ := hs.lookup_has hR h1
      obtain ⟨rn, hrn, hrp⟩ := hs.rooted
      simp only [hl]
      by_cases h2 : foldDn U dn = root
      · have : i = 0 := hs.unique hR hb (.refl 0) (by rw [hs.rootName, dnOf_eq hn, e, h2])
        subst this
        rw [if_pos h2]
        rw [hrn] at hn; cases hn
        simp only [delete, hrn, hrp]
        exact ⟨by simp, hs⟩
      · rw [if_neg h2]
        have hi : i ≠ 0 := by
          intro e0
          subst e0
          rw [← e, ← dnOf_eq hn] at h2
          exact h2 hs.rootName
        obtain ⟨m, p, k, hm, hpar, hch⟩ := (hs.inv.consistent hs.rooted).listed i hb hi
        rw [hn] at hm; cases hm
        have hchild := fun r => hs.child hR hn hb (r := r)
        by_cases h3 : D.hasChild (foldDn U dn) = true
        · rw [if_pos h3]
          obtain ⟨r, as, hm⟩ := hasChild_iff.mp h3
          have : n.children ≠ [] := by
            obtain ⟨k', c', rdn', hm', _⟩ := (hchild r).mp (by rw [e]; exact has_iff.mpr ⟨as, hm⟩)
            intro hnil
            rw [hnil] at hm'; cases hm'
          simp only [delete, hn, hpar]
          rw [if_pos this]
          exact ⟨by simp, hs⟩
        · rw [if_neg h3]
          have hnil : n.children = [] := by
            apply Classical.byContradiction
            intro hne
            obtain ⟨⟨k', c'⟩, hm'⟩ := List.exists_mem_of_ne_nil _ hne
            have hch' : ChildAs h i k' c' := ⟨n, hn, hm'⟩
            obtain ⟨r', hd', hk'⟩ := hch'.dn hs.inv
            have := (hchild (foldRdn U r')).mpr ⟨k', c', r', hm', by rw [hd', dnOf_eq hn], rfl, hk', hs.named _ _ _ _ _ hch' hd'⟩
            obtain ⟨as, hm⟩ := has_iff.mp this
            rw [e] at hm
            exact h3 (hasChild_iff.mpr ⟨_, as, hm⟩)
          obtain ⟨rdn, hd, hk⟩ := hch.dn hs.inv
          rw [dnOf_eq hn] at hd
          obtain ⟨pn, hpn, hcm⟩ := hch
          have hlk : pn.children.lookup rdn.text = some i := lookup_some (hs.inv.siblings p pn hpn) (by rw [← hk]; exact hcm)
          simp only [delete, hn, hpar, hnil, hd, deleteChild, hpn, hlk, ne_eq, not_true_eq_false, if_false]
          refine ⟨trivial, ?_⟩
          rw [hk] at hcm
          refine hs.prune hpn hcm _ List.filter_sublist ?_ hR
          intro q
          simp only [List.mem_filter, bne_iff_ne, ne_eq]
          refine and_congr_right fun hq => not_congr ⟨fun eq => ⟨i, hb, .refl i, by rw [dnOf_eq hn, e, eq]⟩, ?_⟩
          rintro ⟨j, _, ⟨l, hl'⟩, e'⟩
          cases hl' with
          | here => rw [← e', dnOf_eq hn, e]
          | down hc' _ =>
            obtain ⟨n', hn', hm'⟩ := hc'
            rw [hn] at hn'; cases hn'
            rw [hnil] at hm'; cases hm'
    · rw [if_pos (by simpa using h1), hs.lookup_not hR h1]
      exact ⟨by simp, hs⟩
  | deleteChild parent rdn =>
    simp only [request, Directory.step]
    by_cases h1 : D.has (foldDn U parent) = true
    · rw [if_neg (by simp [h1])]
      obtain ⟨p, n, hl, hn, hb, e⟩ := hs.lookup_has hR h1
      have hkey := hs.key_mem hR hn hb (rdn := rdn) hr
      rw [e] at hkey
      simp only [hl]
      by_cases h2 : D.has (foldRdn U rdn :: foldDn U parent) = true
      · rw [if_neg (by simp [h2])]
        obtain ⟨⟨k, c⟩, hm, hk⟩ := List.mem_map.mp (hkey.mpr h2)
        simp only at hk
        subst hk
        have hlk := lookup_some (hs.inv.siblings p n hn) hm
        simp only [deleteChild, hn, hlk]
        refine ⟨trivial, ?_⟩
        refine hs.prune hn hm _ List.filter_sublist ?_ hR
        have hch : ChildAs h p rdn.text c := ⟨n, hn, hm⟩
        obtain ⟨r, hd, hk⟩ := hch.dn hs.inv
        have : rdn = r := hR.text_inj hr (hs.named _ _ _ _ _ hch hd) hk
        subst this
        have hcb : Below h 0 c := by
          obtain ⟨l, hl⟩ := hb
          exact ⟨_, path_append hl (.down hch (.here c))⟩
        have hdc : foldDn U (dnOf h c) = foldRdn U rdn :: foldDn U parent := by
          rw [hd, dnOf_eq hn, ← e]; rfl
        intro q
        simp only [List.mem_filter, Bool.not_eq_true']
        refine and_congr_right fun hq => ?_
        rw [← Bool.not_eq_true, List.isSuffixOf_iff_suffix, ← hdc]
        refine not_congr ⟨fun hsuf => ?_, ?_⟩
        · obtain ⟨j, m, hbj, hj, e1, _⟩ := hs.complete q.1 q.2 hq
          refine ⟨j, hbj, ?_, by rw [dnOf_eq hj, e1]⟩
          rw [← e1, ← dnOf_eq hj] at hsuf
          -- the entry that lies on the way to `j` at the depth of `c` has the DN of `c`
          obtain ⟨l, hl⟩ := hbj
          have key : ∀ (n : Nat) (l : List Nat) (j : Nat), l.length ≤ n → Path h 0 l j → foldDn U (dnOf h c) <:+ foldDn U (dnOf h j) →
              Below h c j := by
            intro n
            induction n with
            | zero =>
              intro l j hln hl hsuf
              rw [List.length_eq_zero_iff.mp (Nat.le_zero.mp hln)] at hl
              cases hl
              have hlen := hsuf.length_le
              have h0 := (hcb.suffix (U := U) hs.inv).length_le
              have : c = 0 := hcb.length_eq hs.inv (by simp only [foldDn_length] at hlen h0; omega)
              subst this
              exact .refl 0
            | succ n ih =>
              intro l j hln hl hsuf
              by_cases heq : foldDn U (dnOf h c) = foldDn U (dnOf h j)
              · have := hs.unique hR hcb ⟨l, hl⟩ heq
                rw [this]; exact .refl j
              · rcases path_snoc hl with ⟨rfl, rfl⟩ | ⟨m, q, k, rfl, hm, hc⟩
                · exact ih [] _ (by simp) (.here _) hsuf
                · obtain ⟨r, hd', _⟩ := hc.dn hs.inv
                  have hsq : foldDn U (dnOf h c) <:+ foldDn U (dnOf h q) := by
                    rw [hd'] at hsuf heq
                    simp only [foldDn, List.map_cons] at hsuf heq ⊢
                    rcases List.suffix_cons_iff.mp hsuf with e | e
                    · exact absurd e heq
                    · exact e
                  obtain ⟨l', hl'⟩ := ih m q (by simp at hln; omega) hm hsq
                  exact ⟨_, path_append hl' (.down hc (.here j))⟩
          exact key l.length l j (Nat.le_refl _) hl hsuf
        · rintro ⟨j, _, hbj, e'⟩
          rw [← e']
          exact hbj.suffix hs.inv
      · rw [if_pos (by simpa using h2)]
        have : n.children.lookup rdn.text = none := by
          rw [List.lookup_eq_none_iff]
          intro x hx
          simp only [bne_iff_ne, ne_eq]
          intro hxe
          exact h2 (hkey.mp (List.mem_map.mpr ⟨x, hx, hxe.symm⟩))
        simp only [deleteChild, hn, this]
        exact ⟨by simp, hs⟩
    · rw [if_pos (by simpa using h1), hs.lookup_not hR h1]
      exact ⟨by simp, hs⟩

theorem run_sim (hR : Spelled U R) : ∀ (rs : List Request) (h : Heap) (D : Directory), Sim U R root h D → (∀ r ∈ rs, Uses R r) →
    (requests U h rs).2 = (D.run U root rs).2 ∧ Sim U R root (requests U h rs).1 (D.run U root rs).1 := by
  intro rs
  induction rs with
  | nil => intro h D hs _; exact ⟨rfl, hs⟩
  | cons r rs ih =>
    intro h D hs hu
    obtain ⟨h1, h2⟩ := step_sim hs hR r (hu r (by simp))
    obtain ⟨h3, h4⟩ := ih _ _ h2 (fun x hx => hu x (by simp [hx]))
    simp only [requests, Directory.run]
    exact ⟨by rw [h1, h3], h4⟩

end Verif.Tree
