import Verif.Lemmas.Directory
import Verif.Lemmas.ServerSearch
import Verif.Model.DiffTree
/-
The in-memory tree as entries by name, and what operations do to it.
-/
namespace Verif.Tree
open Verif.Dn Verif.Spec

variable {U : Unicode} {h : Heap} {R : Rdn → Prop} {root : Name}

/-- The tree has this entry under this name. -/
def View (U : Unicode) (h : Heap) (x : Name) (e : Entry) : Prop :=
  ∃ j n, Below h 0 j ∧ h[j]? = some n ∧ foldDn U n.entry.dn = x ∧ n.entry = e

/-- A tree whose RDNs are among the given ones. -/
structure Good (U : Unicode) (R : Rdn → Prop) (root : Name) (h : Heap) : Prop where
  inv : Inv h
  rooted : Rooted h 0
  named : Named R h
  rootName : foldDn U (dnOf h 0) = root

theorem Good.pos (hg : Good U R root h) : 0 < h.length := by
  obtain ⟨n, hn, _⟩ := hg.rooted
  exact (List.getElem?_eq_some_iff.mp hn).1

theorem Good.unique (hg : Good U R root h) (hR : Spelled U R) {j j' : Nat} (hj : Below h 0 j) (hj' : Below h 0 j')
    (e : foldDn U (dnOf h j) = foldDn U (dnOf h j')) : j = j' :=
  below_unique hg.inv (hg.named.distinct hR hg.inv) hg.pos hj hj' e

theorem Good.view_unique (hg : Good U R root h) (hR : Spelled U R) {x : Name} {e e' : Entry} (h1 : View U h x e) (h2 : View U h x e') :
    e = e' := by
  obtain ⟨j, n, hb, hn, hx, rfl⟩ := h1
  obtain ⟨j', n', hb', hn', hx', rfl⟩ := h2
  have := hg.unique hR hb hb' (by rw [dnOf_eq hn, dnOf_eq hn', hx, hx'])
  subst this
  rw [hn] at hn'; cases hn'; rfl

theorem Good.view_name {x : Name} {e : Entry} (h1 : View U h x e) : foldDn U e.dn = x := by
  obtain ⟨j, n, hb, hn, hx, rfl⟩ := h1
  exact hx

theorem Good.lookup_view (hg : Good U R root h) (hR : Spelled U R) {dn : Dn} {e : Entry} (hv : View U h (foldDn U dn) e) :
    ∃ j n, lookup U h 0 dn = .ok j ∧ h[j]? = some n ∧ Below h 0 j ∧ n.entry = e := by
  obtain ⟨j, n, hb, hn, hx, rfl⟩ := hv
  exact ⟨j, n, (lookup_iff hg.inv (hg.named.distinct hR hg.inv) hg.pos dn j).mpr ⟨hb, by rw [dnOf_eq hn, hx]⟩, hn, hb, rfl⟩

theorem Good.lookup_none (hg : Good U R root h) (hR : Spelled U R) {dn : Dn} (hv : ∀ e, ¬ View U h (foldDn U dn) e) :
    lookup U h 0 dn = .error .noSuchObject :=
  lookup_error hg.inv (hg.named.distinct hR hg.inv) hg.pos fun j hb e => by
    have hj := hb.lt_length hg.inv hg.pos
    have hn := List.getElem?_eq_getElem hj
    exact hv _ ⟨j, h[j], hb, hn, by rw [← dnOf_eq hn, e], rfl⟩

theorem Good.view_lookup (hg : Good U R root h) (hR : Spelled U R) {dn : Dn} {j : Nat} {n : Node} (hl : lookup U h 0 dn = .ok j)
    (hn : h[j]? = some n) : View U h (foldDn U dn) n.entry := by
  obtain ⟨hb, e⟩ := (lookup_iff hg.inv (hg.named.distinct hR hg.inv) hg.pos dn j).mp hl
  exact ⟨j, n, hb, hn, by rw [← dnOf_eq hn, e], rfl⟩

/-- The children of an entry are the entries one step below. -/
theorem Good.child (hg : Good U R root h) (hR : Spelled U R) {p : Nat} {n : Node} (hn : h[p]? = some n) (hp : Below h 0 p)
    {r : List (Str × Str)} {e : Entry} :
    View U h (r :: foldDn U n.entry.dn) e ↔ ∃ k c rdn m, (k, c) ∈ n.children ∧ h[c]? = some m ∧ m.entry = e ∧ e.dn = rdn :: n.entry.dn ∧
      foldRdn U rdn = r ∧ k = Rdn.text rdn ∧ R rdn := by
  constructor
  · rintro ⟨j, m, ⟨l, hl⟩, hm, e', rfl⟩
    have h0 : foldDn U (dnOf h 0) <:+ foldDn U (dnOf h p) := hp.suffix hg.inv
    rcases path_snoc hl with ⟨rfl, rfl⟩ | ⟨m', q, k, rfl, hm', hc⟩
    · rw [dnOf_eq hm, e', dnOf_eq hn] at h0
      have := h0.length_le
      simp only [List.length_cons] at this
      omega
    · obtain ⟨rdn, hd, hk⟩ := hc.dn hg.inv
      have hR' := hg.named _ _ _ _ _ hc hd
      rw [dnOf_eq hm] at hd
      rw [hd] at e'
      simp only [foldDn, List.map_cons, List.cons.injEq] at e'
      have : q = p := hg.unique hR ⟨m', hm'⟩ hp (by rw [dnOf_eq hn]; exact e'.2)
      subst this
      obtain ⟨n', hn', hm''⟩ := hc
      rw [hn] at hn'; cases hn'
      exact ⟨k, j, rdn, m, hm'', hm, rfl, by rw [hd, dnOf_eq hn], e'.1, hk, hR'⟩
  · rintro ⟨k, c, rdn, m, hm, hc, rfl, hd, rfl, _⟩
    obtain ⟨l, hl⟩ := hp
    exact ⟨c, m, ⟨_, path_append hl (.down ⟨n, hn, hm⟩ (.here c))⟩, hc, by rw [hd]; rfl, rfl⟩

/-- Above an entry there is an entry. -/
theorem Good.view_up (hg : Good U R root h) {r : List (Str × Str)} {x : Name} {e : Entry} (hv : View U h (r :: x) e)
    (hx : root.length ≤ x.length) : ∃ e', View U h x e' := by
  obtain ⟨j, m, ⟨l, hl⟩, hm, e', rfl⟩ := hv
  rcases path_snoc hl with ⟨rfl, rfl⟩ | ⟨m', q, k, rfl, hm', hc⟩
  · have := hg.rootName
    rw [dnOf_eq hm, e'] at this
    rw [← this] at hx
    simp only [List.length_cons] at hx
    omega
  · obtain ⟨rdn, hd, _⟩ := hc.dn hg.inv
    rw [dnOf_eq hm] at hd
    rw [hd] at e'
    simp only [foldDn, List.map_cons, List.cons.injEq] at e'
    obtain ⟨n', hn', _⟩ := hc
    rw [dnOf_eq hn'] at e'
    exact ⟨n'.entry, q, n', ⟨m', hm'⟩, hn', e'.2, rfl⟩

theorem Good.view_suffix (hg : Good U R root h) {z : Name} : ∀ {y : Name} {e : Entry}, View U h y e → z <:+ y →
    root.length ≤ z.length → ∃ e', View U h z e' := by
  intro y
  induction y with
  | nil =>
    intro e hv hz _
    have := List.eq_nil_of_suffix_nil hz
    subst this
    exact ⟨e, hv⟩
  | cons r y ih =>
    intro e hv hz hl
    rcases List.suffix_cons_iff.mp hz with rfl | hz'
    · exact ⟨e, hv⟩
    · obtain ⟨e', he'⟩ := hg.view_up hv (Nat.le_trans hl hz'.length_le)
      exact ih he' hz' hl

theorem Good.view_root (hg : Good U R root h) {y : Name} {e : Entry} (hv : View U h y e) : root <:+ y := by
  obtain ⟨j, n, hb, hn, hx, rfl⟩ := hv
  have := hb.suffix (U := U) hg.inv
  rw [hg.rootName, dnOf_eq hn, hx] at this
  exact this

/-! What operations do. -/

variable {env : Server.Env} {o : Orders}

/-- Adding an entry. -/
theorem Good.add (hg : Good env.U R root h) (hR : Spelled env.U R) {rdn : Rdn} {d : Dn} {as : Attrs} {p : Entry} (hr : R rdn)
    (hp : View env.U h (foldDn env.U d) p) (hno : ∀ e, ¬ View env.U h (foldRdn env.U rdn :: foldDn env.U d) e) {l : Attrs}
    (hi : Server.items env ⟨rdn :: d, as⟩ = .ok l) :
    ∃ h', patchOp env o h (.add ⟨rdn :: d, as⟩) = (h', none) ∧ Good env.U R root h' ∧
      ∀ y e, View env.U h' y e ↔ View env.U h y e ∨ (y = foldRdn env.U rdn :: foldDn env.U d ∧ e = ⟨rdn :: p.dn, buildAttrs env.U l⟩) := by
  obtain ⟨q, n, hl, hn, hb, rfl⟩ := hg.lookup_view hR hp
  have hname : foldDn env.U n.entry.dn = foldDn env.U d := Good.view_name hp
  have hk : rdn.text ∉ n.children.map (·.1) := by
    intro hm
    obtain ⟨⟨k, c⟩, hkc, e⟩ := List.mem_map.mp hm
    have hc : ChildAs h q k c := ⟨n, hn, hkc⟩
    obtain ⟨r, hd, hk⟩ := hc.dn hg.inv
    have hr' := hg.named _ _ _ _ _ hc hd
    have : r = rdn := hR.text_inj hr' hr (by rw [← hk]; exact e)
    subst this
    obtain ⟨_, m, r', hm, _⟩ := hg.inv.links q n k c hn hkc
    rw [dnOf_eq hm, dnOf_eq hn] at hd
    refine hno m.entry ?_
    rw [← hname]
    exact (hg.child hR hn hb).mpr ⟨k, c, r, m, hkc, hm, rfl, hd, rfl, hk, hr'⟩
  have below : ∀ j, Below (grow h q n rdn.text ⟨⟨rdn :: n.entry.dn, buildAttrs env.U l⟩, some q, []⟩) 0 j ↔ _ := fun j =>
    grow_below hg.inv hn rfl hg.pos
  refine ⟨grow h q n rdn.text ⟨⟨rdn :: n.entry.dn, buildAttrs env.U l⟩, some q, []⟩, ?_,
    ⟨grow_inv hg.inv hn hk, ?_, grow_named hg.named hg.inv hn hr, ?_⟩, fun y e => ⟨?_, ?_⟩⟩
  · have hup : Dn.up (rdn :: d) = d := rfl
    simp only [patchOp, hup, hl, addChild_eq hn, if_neg hk, hi]
  · obtain ⟨m, hm, hpar⟩ := hg.rooted
    obtain ⟨m', hm', e, _⟩ := grow_old (k := rdn.text) (new := ⟨⟨rdn :: n.entry.dn, buildAttrs env.U l⟩, some q, []⟩) hn hm
    exact ⟨m', hm', by rw [e, hpar]⟩
  · rw [grow_dnOf hn hg.pos]; exact hg.rootName
  · rintro ⟨j, m, hb', hm, hx, rfl⟩
    rcases (below j).mp hb' with hb' | ⟨rfl, _⟩
    · have hj := hb'.lt_length hg.inv hg.pos
      obtain ⟨m', hm', _, e⟩ := grow_old (k := rdn.text) (new := ⟨⟨rdn :: n.entry.dn, buildAttrs env.U l⟩, some q, []⟩) hn
        (List.getElem?_eq_getElem hj)
      rw [hm] at hm'
      cases hm'
      exact .inl ⟨j, h[j], hb', List.getElem?_eq_getElem hj, by rw [← e, hx], e.symm⟩
    · rw [grow_new] at hm
      cases hm
      refine .inr ⟨?_, rfl⟩
      rw [← hx, ← hname]; rfl
  · rintro (⟨j, m, hb', hm, hx, rfl⟩ | ⟨rfl, rfl⟩)
    · obtain ⟨m', hm', _, e⟩ := grow_old (k := rdn.text) (new := ⟨⟨rdn :: n.entry.dn, buildAttrs env.U l⟩, some q, []⟩) hn hm
      exact ⟨j, m', (below j).mpr (.inl hb'), hm', by rw [e, hx], e⟩
    · exact ⟨h.length, _, (below _).mpr (.inr ⟨rfl, hb⟩), grow_new, by rw [← hname]; rfl, rfl⟩

/-- Deleting an entry. -/
theorem Good.delete (hg : Good env.U R root h) (hR : Spelled env.U R) {dn : Dn} {e : Entry} (hv : View env.U h (foldDn env.U dn) e)
    (hroot : foldDn env.U dn ≠ root) (hleaf : ∀ r e', ¬ View env.U h (r :: foldDn env.U dn) e') :
    ∃ h', patchOp env o h (.delete dn) = (h', none) ∧ Good env.U R root h' ∧
      ∀ y e, View env.U h' y e ↔ View env.U h y e ∧ y ≠ foldDn env.U dn := by
  obtain ⟨i, n, hl, hn, hb, rfl⟩ := hg.lookup_view hR hv
  have hname : foldDn env.U n.entry.dn = foldDn env.U dn := Good.view_name hv
  have hi : i ≠ 0 := by
    intro e0
    subst e0
    apply hroot
    rw [← hname, ← dnOf_eq hn]; exact hg.rootName
  obtain ⟨m, p, k, hm, hpar, hch⟩ := (hg.inv.consistent hg.rooted).listed i hb hi
  rw [hn] at hm; cases hm
  have hnil : n.children = [] := by
    apply Classical.byContradiction
    intro hne
    obtain ⟨⟨k', c'⟩, hm'⟩ := List.exists_mem_of_ne_nil _ hne
    have hch' : ChildAs h i k' c' := ⟨n, hn, hm'⟩
    obtain ⟨r', hd', hk'⟩ := hch'.dn hg.inv
    have hr' := hg.named _ _ _ _ _ hch' hd'
    obtain ⟨_, m', r'', hmm, _⟩ := hg.inv.links i n k' c' hn hm'
    rw [dnOf_eq hmm, dnOf_eq hn] at hd'
    refine hleaf (foldRdn env.U r') m'.entry ?_
    rw [← hname]
    exact (hg.child hR hn hb).mpr ⟨k', c', r', m', hm', hmm, rfl, hd', rfl, hk', hr'⟩
  obtain ⟨rdn, hd, hk⟩ := hch.dn hg.inv
  rw [dnOf_eq hn] at hd
  obtain ⟨pn, hpn, hcm⟩ := hch
  rw [hk] at hcm
  have hlk : pn.children.lookup rdn.text = some i := lookup_some (hg.inv.siblings p pn hpn) hcm
  have h0 : ¬ Below h i 0 := by
    rintro ⟨l, hl⟩
    have := hg.inv.path_le hl
    omega
  have below : ∀ j, Below (prune h p pn rdn.text) 0 j ↔ _ := fun j => prune_below hg.inv hpn hcm h0
  have only : ∀ j, Below h i j → j = i := by
    rintro j ⟨l, hl'⟩
    cases hl' with
    | here => rfl
    | down hc _ =>
      obtain ⟨n', hn', hm'⟩ := hc
      rw [hn] at hn'; cases hn'
      rw [hnil] at hm'; cases hm'
  refine ⟨prune h p pn rdn.text, ?_, ⟨prune_inv hg.inv hpn, ?_, prune_named hg.named hpn, ?_⟩, fun y e => ⟨?_, ?_⟩⟩
  · simp only [patchOp, hl, Tree.delete, hn, hpar, hnil, hd, deleteChild, hpn, hlk, ne_eq, not_true_eq_false, if_false]
    rfl
  · obtain ⟨m, hm, hpar⟩ := hg.rooted
    obtain ⟨m', hm', e, _⟩ := prune_old (k := rdn.text) hpn hm
    exact ⟨m', hm', by rw [e, hpar]⟩
  · rw [prune_dnOf hpn]; exact hg.rootName
  · rintro ⟨j, m, hb', hm, hx, rfl⟩
    obtain ⟨hb', hnb⟩ := (below j).mp hb'
    obtain ⟨m', hm', e, _⟩ := prune_cases hpn hm
    refine ⟨⟨j, m', hb', hm', by rw [e, hx], e⟩, fun hy => hnb ?_⟩
    have : j = i := hg.unique hR hb' hb (by rw [dnOf_eq hm', e, hx, hy, dnOf_eq hn, hname])
    rw [this]; exact .refl i
  · rintro ⟨⟨j, m, hb', hm, hx, rfl⟩, hy⟩
    obtain ⟨m', hm', _, e⟩ := prune_old (k := rdn.text) hpn hm
    refine ⟨j, m', (below j).mpr ⟨hb', fun hij => ?_⟩, hm', by rw [e, hx], e⟩
    have := only j hij
    subst this
    rw [hn] at hm; cases hm
    exact hy (by rw [← hx, hname])

theorem set_childAs {i : Nat} {n : Node} (hn : h[i]? = some n) {e : Entry} {j c : Nat} {k : Str} :
    ChildAs (h.set i { n with entry := e }) j k c ↔ ChildAs h j k c := by
  have hlt : i < h.length := (List.getElem?_eq_some_iff.mp hn).1
  unfold ChildAs
  by_cases hij : i = j
  · subst hij
    rw [List.getElem?_set, if_pos rfl, if_pos hlt, hn]
    constructor <;> rintro ⟨m, hm, hc⟩ <;> cases hm <;> exact ⟨_, rfl, hc⟩
  · rw [List.getElem?_set, if_neg hij]

theorem set_below {i : Nat} {n : Node} (hn : h[i]? = some n) {e : Entry} {j c : Nat} :
    Below (h.set i { n with entry := e }) j c ↔ Below h j c := by
  constructor <;> rintro ⟨l, hp⟩ <;> refine ⟨l, ?_⟩ <;> induction hp with
  | here i => exact .here i
  | down hc _ ih => exact .down (by first | exact (set_childAs hn).mp hc | exact (set_childAs hn).mpr hc) ih

/-- Modifying an entry. -/
theorem Good.modify (hg : Good env.U R root h) (hR : Spelled env.U R) {dn : Dn} {e e' : Entry} (hv : View env.U h (foldDn env.U dn) e)
    {ms : List Mod} (hp : Delta.patchAll env.U (ms.map fun m => { m with values := o.values m.values }) e = (e', none)) (hd : e'.dn = e.dn) :
    ∃ h', patchOp env o h (.modify dn ms) = (h', none) ∧ Good env.U R root h' ∧
      ∀ y f, View env.U h' y f ↔ (y ≠ foldDn env.U dn ∧ View env.U h y f) ∨ (y = foldDn env.U dn ∧ f = e') := by
  obtain ⟨i, n, hl, hn, hb, rfl⟩ := hg.lookup_view hR hv
  have hname : foldDn env.U n.entry.dn = foldDn env.U dn := Good.view_name hv
  have hlt : i < h.length := (List.getElem?_eq_some_iff.mp hn).1
  obtain ⟨hinv, hrt⟩ := Server.set_inv hg.inv hg.rooted hn hd
  have hdn : ∀ j, dnOf (h.set i { n with entry := e' }) j = dnOf h j := by
    intro j
    unfold dnOf
    by_cases hij : i = j
    · subst hij
      rw [List.getElem?_set, if_pos rfl, if_pos hlt, hn]
      exact hd
    · rw [List.getElem?_set, if_neg hij]
  refine ⟨h.set i { n with entry := e' }, ?_, ⟨hinv, hrt, ?_, by rw [hdn]; exact hg.rootName⟩, fun y f => ⟨?_, ?_⟩⟩
  · simp only [patchOp, hl, hn, hp]
  · intro j k c r d hc hdc
    rw [hdn] at hdc
    exact hg.named j k c r d ((set_childAs hn).mp hc) hdc
  · rintro ⟨j, m, hb', hm, hx, rfl⟩
    by_cases hij : i = j
    · subst hij
      simp only [List.getElem?_set, hlt, if_true, Option.some.injEq] at hm
      subst hm
      exact .inr ⟨by rw [← hx, ← hname]; exact congrArg _ hd, rfl⟩
    · rw [List.getElem?_set, if_neg hij] at hm
      rw [set_below hn] at hb'
      refine .inl ⟨fun hy => hij ?_, j, m, hb', hm, hx, rfl⟩
      exact hg.unique hR hb hb' (by rw [dnOf_eq hn, dnOf_eq hm, hx, hy, hname])
  · rintro (⟨hy, j, m, hb', hm, hx, rfl⟩ | ⟨rfl, rfl⟩)
    · have hij : i ≠ j := by
        intro hij
        subst hij
        rw [hn] at hm; cases hm
        exact hy (by rw [← hx, hname])
      exact ⟨j, m, (set_below hn).mpr hb', by rw [List.getElem?_set, if_neg hij]; exact hm, hx, rfl⟩
    · refine ⟨i, _, (set_below hn).mpr hb, by rw [List.getElem?_set, if_pos rfl, if_pos hlt], ?_, rfl⟩
      rw [← hname]; exact congrArg _ hd

end Verif.Tree
