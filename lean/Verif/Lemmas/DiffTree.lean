import Verif.Lemmas.TreeView
import Verif.Lemmas.SyntaxItems
import Verif.Props.C20
import Verif.Props.C26
import Verif.Spec.Each
/-
The parts of the difference of two trees, and what replaying each of them does.
-/
namespace Verif.Tree
open Verif.Dn Verif.Spec
open Verif.C20 (HasValue)

theorem mapM'_pick {α β : Type} (f : α → Py β) (l : List α) (h : ∀ x ∈ l, ∃ y, f x = .ok y) :
    ∃ ys, Ldap.mapM' f l = .ok ys ∧ (∀ y ∈ ys, ∃ x ∈ l, f x = .ok y) ∧ (∀ x ∈ l, ∃ y ∈ ys, f x = .ok y) := by
  induction l with
  | nil => exact ⟨[], rfl, by simp, by simp⟩
  | cons x l ih =>
    obtain ⟨y, hy⟩ := h x (by simp)
    obtain ⟨ys, h1, h2, h3⟩ := ih fun z hz => h z (by simp [hz])
    refine ⟨y :: ys, by simp [Ldap.mapM', hy, h1, bind, Except.bind, pure, Except.pure], ?_, ?_⟩
    · intro z hz
      rcases List.mem_cons.mp hz with rfl | hz
      · exact ⟨x, by simp, hy⟩
      · obtain ⟨w, hw, e⟩ := h2 z hz; exact ⟨w, by simp [hw], e⟩
    · intro z hz
      rcases List.mem_cons.mp hz with rfl | hz
      · exact ⟨y, by simp, hy⟩
      · obtain ⟨w, hw, e⟩ := h3 z hz; exact ⟨w, by simp [hw], e⟩

/-- Different things are mapped to different things. -/
theorem mapM'_nodup {α β : Type} {f : α → Py β} {l : List α} (hl : l.Nodup)
    (hinj : ∀ x ∈ l, ∀ x' ∈ l, ∀ y, f x = .ok y → f x' = .ok y → x = x') {ys : List β} (h : Ldap.mapM' f l = .ok ys) : ys.Nodup := by
  induction l generalizing ys with
  | nil => cases h; exact .nil
  | cons x l ih =>
    rw [List.nodup_cons] at hl
    simp only [Ldap.mapM', bind, Except.bind, pure, Except.pure] at h
    cases hy : f x with
    | error _ => simp [hy] at h
    | ok y =>
      cases hz : Ldap.mapM' f l with
      | error _ => simp [hy, hz] at h
      | ok zs =>
        simp only [hy, hz, Except.ok.injEq] at h
        subst h
        refine List.nodup_cons.mpr ⟨fun hm => ?_, ih hl.2 (fun a ha b hb => hinj a (by simp [ha]) b (by simp [hb])) hz⟩
        have : ∃ w ∈ l, f w = .ok y := by
          clear ih hl hinj hy
          induction l generalizing zs with
          | nil => cases hz; cases hm
          | cons w l ih =>
            simp only [Ldap.mapM', bind, Except.bind, pure, Except.pure] at hz
            cases hw : f w with
            | error _ => simp [hw] at hz
            | ok u =>
              cases hz' : Ldap.mapM' f l with
              | error _ => simp [hw, hz'] at hz
              | ok us =>
                simp only [hw, hz', Except.ok.injEq] at hz
                subst hz
                rcases List.mem_cons.mp hm with rfl | hm
                · exact ⟨w, by simp, hw⟩
                · obtain ⟨v, hv, e⟩ := ih us hz' hm
                  exact ⟨v, by simp [hv], e⟩
        obtain ⟨w, hw, e⟩ := this
        have := hinj x (by simp) w (by simp [hw]) y hy e
        subst this
        exact hl.1 hw

theorem mem_rdnSet {r : Rdn} {l : List Rdn} : r ∈ rdnSet l ↔ r ∈ l := by
  induction l with
  | nil => rfl
  | cons a l ih =>
    unfold rdnSet
    split
    · rename_i h
      rw [ih, List.mem_cons]
      exact ⟨.inr, fun h' => h'.elim (fun e => e ▸ h) id⟩
    · simp [ih]

theorem rdnSet_nodup (l : List Rdn) : (rdnSet l).Nodup := by
  induction l with
  | nil => exact .nil
  | cons a l ih =>
    unfold rdnSet
    split
    · exact ih
    · rename_i h
      exact List.nodup_cons.mpr ⟨fun h' => h (mem_rdnSet.mp h'), ih⟩

theorem filter_one {α : Type} {l : List α} {p : α → Bool} {c : α} (hl : l.Nodup) (hc : c ∈ l) (hp : ∀ x ∈ l, p x = true ↔ x = c) :
    l.filter p = [c] := by
  induction l with
  | nil => cases hc
  | cons a l ih =>
    rw [List.nodup_cons] at hl
    by_cases ha : a = c
    · subst ha
      rw [List.filter_cons_of_pos ((hp a (by simp)).mpr rfl)]
      congr 1
      rw [List.filter_eq_nil_iff]
      intro x hx hpx
      have := (hp x (by simp [hx])).mp hpx
      subst this
      exact hl.1 hx
    · rw [List.filter_cons_of_neg (fun h => ha ((hp a (by simp)).mp h))]
      exact ih hl.2 ((List.mem_cons.mp hc).resolve_left fun e => ha e.symm) fun x hx => hp x (by simp [hx])

variable {U : Unicode} {h ha hb : Heap} {R : Rdn → Prop} {root : Name}

theorem Good.below_view (hg : Good U R root h) {j : Nat} (hb : Below h 0 j) :
    ∃ n, h[j]? = some n ∧ View U h (foldDn U (dnOf h j)) n.entry := by
  have hj := hb.lt_length hg.inv hg.pos
  have hn := List.getElem?_eq_getElem hj
  exact ⟨h[j], hn, j, h[j], hb, hn, by rw [dnOf_eq hn], rfl⟩

theorem Good.node_child (hg : Good U R root h) {i c : Nat} {n : Node} (hn : h[i]? = some n) (hc : c ∈ n.children.map (·.2)) :
    ∃ k r, ChildAs h i k c ∧ dnOf h c = r :: n.entry.dn ∧ R r := by
  obtain ⟨⟨k, c'⟩, hm, rfl⟩ := List.mem_map.mp hc
  have hch : ChildAs h i k c' := ⟨n, hn, hm⟩
  obtain ⟨r, hd, _⟩ := hch.dn hg.inv
  exact ⟨k, r, hch, by rw [hd, dnOf_eq hn], hg.named _ _ _ _ _ hch hd⟩

/-- The RDNs of the children, and how they lead to the children. -/
theorem Good.kids (hg : Good U R root h) (hR : Spelled U R) {i : Nat} {n : Node} (hn : h[i]? = some n) (hi : Below h 0 i) :
    ∃ my, Ldap.mapM' (rdnOf h) (n.children.map (·.2)) = .ok my ∧
      (∀ r ∈ my, R r ∧ ∃ c k, childWith U h (n.children.map (·.2)) r = .ok c ∧ ChildAs h i k c ∧ dnOf h c = r :: n.entry.dn) ∧
      ∀ q e, View U h (q :: foldDn U n.entry.dn) e → ∃ r ∈ my, foldRdn U r = q := by
  have hrdn : ∀ c ∈ n.children.map (·.2), ∃ r, rdnOf h c = .ok r := by
    intro c hc
    obtain ⟨_, r, _, hd, _⟩ := hg.node_child hn hc
    exact ⟨r, by simp [rdnOf, hd]⟩
  obtain ⟨my, h1, h2, h3⟩ := mapM'_pick (rdnOf h) _ hrdn
  refine ⟨my, h1, fun r hr => ?_, fun q e hv => ?_⟩
  · obtain ⟨c, hc, e⟩ := h2 r hr
    obtain ⟨k, r', hch, hd, hr'⟩ := hg.node_child hn hc
    have : r' = r := by simpa [rdnOf, hd] using e
    subst this
    refine ⟨hr', c, k, ?_, hch, hd⟩
    unfold childWith
    rw [filter_one (c := c) (hg.inv.nodes hn) hc]
    intro c' hc'
    obtain ⟨k', r', hch', hd', hr''⟩ := hg.node_child hn hc'
    simp only [rdnOf, hd', Rdn.eq_iff]
    constructor
    · intro e'
      have := hR.alike _ _ hr'' hr' e'
      subst this
      have bel : ∀ c k, ChildAs h i k c → Below h 0 c := by
        intro c k hc
        obtain ⟨l, hl⟩ := hi
        exact ⟨_, path_append hl (.down hc (.here c))⟩
      exact hg.unique hR (bel _ _ hch') (bel _ _ hch) (by rw [hd, hd'])
    · rintro rfl
      rw [hd] at hd'
      rw [(List.cons.inj hd').1]
  · obtain ⟨k, c, rdn, m, hm, hcm, rfl, hd, hq, _⟩ := (hg.child hR hn hi).mp hv
    obtain ⟨r, hr, e⟩ := h3 c (List.mem_map.mpr ⟨_, hm, rfl⟩)
    rw [← dnOf_eq hcm] at hd
    have : rdn = r := by simpa [rdnOf, hd] using e
    exact ⟨r, hr, by rw [← this, hq]⟩

/-! Whole subtrees. -/

theorem subtree_spec (hv : Inv h) {c : Nat} (hc : c < h.length) :
    (∀ j, j ∈ subtree h c ↔ Below h c j) ∧ (subtree h c).Pairwise fun a b => ¬ Below h b a := by
  obtain ⟨r, h1, h2, h3⟩ := C26.walk_spec hv (fun _ => some true) (h.length + 1) c hc (by omega) (fun j _ => ⟨true, rfl⟩)
  simp only [subtree, h1]
  exact ⟨fun j => by simp [h2], h3⟩

/-- The subtrees of some of the children of a node. -/
theorem subtrees_spec (hv : Inv h) {i : Nat} {cs : List Nat} (hcs : ∀ c ∈ cs, ∃ k, ChildAs h i k c) (hnd : cs.Nodup)
    (f : List Nat → List Nat) (hf : ∀ l a, a ∈ f l ↔ a ∈ l) (P : Nat → Nat → Prop)
    (hP : ∀ c ∈ cs, (f (subtree h c)).Pairwise P) (hdis : ∀ a b, ¬ Below h a b → ¬ Below h b a → P a b) :
    (∀ j, j ∈ cs.flatMap (fun c => f (subtree h c)) ↔ ∃ c ∈ cs, Below h c j) ∧ (cs.flatMap fun c => f (subtree h c)).Pairwise P := by
  induction cs with
  | nil => simp
  | cons c cs ih =>
    rw [List.nodup_cons] at hnd
    obtain ⟨k, hk⟩ := hcs c (by simp)
    obtain ⟨h1, h2⟩ := subtree_spec hv (hk.lt_length hv)
    obtain ⟨h3, h4⟩ := ih (fun c' hc' => hcs c' (by simp [hc'])) hnd.2 (fun c' hc' => hP c' (by simp [hc']))
    rw [List.flatMap_cons]
    refine ⟨fun j => by simp only [List.mem_append, hf, h1, h3, List.mem_cons, exists_eq_or_imp], ?_⟩
    rw [List.pairwise_append]
    refine ⟨hP c (by simp), h4, fun a ha b hb => ?_⟩
    have ha' := (h1 a).mp ((hf _ _).mp ha)
    obtain ⟨c', hc', hb'⟩ := (h3 b).mp hb
    obtain ⟨k', hk'⟩ := hcs c' (by simp [hc'])
    apply hdis
    · rintro ⟨l, hl⟩
      obtain ⟨l', hl'⟩ := ha'
      have := C26.same_child hv hk hk' ⟨_, path_append hl' hl⟩ hb'
      exact hnd.1 (this ▸ hc')
    · rintro ⟨l, hl⟩
      obtain ⟨l', hl'⟩ := hb'
      have := C26.same_child hv hk hk' ha' ⟨_, path_append hl' hl⟩
      exact hnd.1 (this ▸ hc')

theorem entriesAt_append {l l' : List Nat} : entriesAt h (l ++ l') = entriesAt h l ++ entriesAt h l' := by
  simp [entriesAt]

theorem entriesAt_reverse {l : List Nat} : (entriesAt h l).reverse = entriesAt h l.reverse := by
  simp [entriesAt, List.filterMap_reverse]

theorem addedOps_eq (cs : List Nat) : addedOps h cs = (entriesAt h (cs.flatMap fun c => subtree h c)).map .add := by
  induction cs with
  | nil => rfl
  | cons c cs ih =>
    have : addedOps h (c :: cs) = (entriesAt h (subtree h c)).map .add ++ addedOps h cs := rfl
    rw [this, ih, List.flatMap_cons, entriesAt_append, List.map_append]

theorem deletedOps_eq (cs : List Nat) :
    deletedOps h cs = (entriesAt h (cs.flatMap fun c => (subtree h c).reverse)).map fun e => .delete e.dn := by
  induction cs with
  | nil => rfl
  | cons c cs ih =>
    have : deletedOps h (c :: cs) = ((entriesAt h (subtree h c)).reverse.map fun e => .delete e.dn) ++ deletedOps h cs := rfl
    rw [this, ih, List.flatMap_cons, entriesAt_append, List.map_append, entriesAt_reverse]

variable {env : Server.Env} {o : Orders}

theorem replay_append {h h' : Heap} {l l' : List TreeOp} (hr : replay env o h l = (h', none)) :
    replay env o h (l ++ l') = replay env o h' l' := by
  induction l generalizing h with
  | nil => cases hr; rfl
  | cons op l ih =>
    simp only [List.cons_append, replay] at hr ⊢
    cases hp : patchOp env o h op with
    | mk h1 x =>
      rw [hp] at hr
      cases x with
      | none => exact ih hr
      | some x => cases hr

theorem replay_one {h h' : Heap} {op : TreeOp} (hr : patchOp env o h op = (h', none)) : replay env o h [op] = (h', none) := by
  simp [replay, hr]

/-- An operation that does the same: the values of a modification in another order, or an added entry with the same name and
values. -/
inductive Like (env : Server.Env) : TreeOp → TreeOp → Prop where
  | modify (dn : Dn) (ms ms' : List Mod) : Delta.Reordered ms ms' → Like env (.modify dn ms) (.modify dn ms')
  | add (e e' : Entry) (l : Verif.Attrs) : e'.dn = e.dn → Server.items env e' = .ok l →
      (∀ dn k v, HasValue ⟨dn, buildAttrs env.U l⟩ k v ↔ HasValue e k v) → Like env (.add e) (.add e')
  | delete (dn : Dn) : Like env (.delete dn) (.delete dn)

theorem each_split {α β : Type} {P : α → β → Prop} {a b : List α} {c : List β} (h : Each P (a ++ b) c) :
    ∃ c1 c2, c = c1 ++ c2 ∧ Each P a c1 ∧ Each P b c2 := by
  induction a generalizing c with
  | nil => exact ⟨[], c, rfl, .nil, h⟩
  | cons x a ih =>
    cases h with
    | cons h1 h2 =>
      obtain ⟨c1, c2, rfl, h3, h4⟩ := ih h2
      exact ⟨_ :: c1, c2, rfl, .cons h1 h3, h4⟩

theorem each_nil {α β : Type} {P : α → β → Prop} {c : List β} (h : Each P [] c) : c = [] := by cases h; rfl

theorem each_self {α : Type} {P : α → α → Prop} {l : List α} (h : ∀ x ∈ l, P x x) : Each P l l := by
  induction l with
  | nil => exact .nil
  | cons a l ih => exact .cons (h a (by simp)) (ih fun x hx => h x (by simp [hx]))

/-- Adding entries of another tree, parents first. -/
theorem add_all (hR : Spelled env.U R) (hgb : Good env.U R root hb) :
    ∀ (L : List Nat) (h : Heap), Good env.U R root h → (∀ j ∈ L, Below hb 0 j ∧ j ≠ 0) → L.Pairwise (fun a b => ¬ Below hb b a) →
      (∀ j ∈ L, ∀ e, ¬ View env.U h (foldDn env.U (dnOf hb j)) e) →
      (∀ j ∈ L, ∀ p k, ChildAs hb p k j → p ∈ L ∨ ∃ e, View env.U h (foldDn env.U (dnOf hb p)) e) →
      ∀ ops, Each (Like env) ((entriesAt hb L).map .add) ops → ∃ h', replay env o h ops = (h', none) ∧ Good env.U R root h' ∧
        (∀ y, (∀ j ∈ L, foldDn env.U (dnOf hb j) ≠ y) → ∀ e, View env.U h' y e ↔ View env.U h y e) ∧
        ∀ j ∈ L, ∀ m, hb[j]? = some m → ∃ e, View env.U h' (foldDn env.U (dnOf hb j)) e ∧ ∀ k v, HasValue e k v ↔ HasValue m.entry k v := by
  intro L
  induction L with
  | nil => intro h hg _ _ _ _ ops hops; cases each_nil hops; exact ⟨h, rfl, hg, fun y _ e => Iff.rfl, fun j hj => by cases hj⟩
  | cons j L ih =>
    intro h hg hbel hpw hno hpar ops hops
    rw [List.pairwise_cons] at hpw
    obtain ⟨hj0, hj⟩ := hbel j (by simp)
    obtain ⟨m, p, k, hm, _, hch⟩ := (hgb.inv.consistent hgb.rooted).listed j hj0 hj
    obtain ⟨rdn, hd, _⟩ := hch.dn hgb.inv
    have hr := hgb.named _ _ _ _ _ hch hd
    have hp : ∃ e, View env.U h (foldDn env.U (dnOf hb p)) e := by
      rcases hpar j (by simp) p k hch with hp | hp
      · rcases List.mem_cons.mp hp with rfl | hp
        · have := hgb.inv.lt hch; omega
        · exact absurd ⟨_, .down hch (.here j)⟩ (hpw.1 p hp)
      · exact hp
    obtain ⟨pe, hpe⟩ := hp
    have : entriesAt hb (j :: L) = m.entry :: entriesAt hb L := by simp [entriesAt, hm]
    rw [this, List.map_cons] at hops
    cases hops with | cons hop hops => ?_
    cases hop with | add _ e' l hdn hl hvals => ?_
    have hentry : e' = ⟨rdn :: dnOf hb p, e'.attrs⟩ := by rw [← hd, dnOf_eq hm, ← hdn]
    have hname : foldDn env.U (dnOf hb j) = foldRdn env.U rdn :: foldDn env.U (dnOf hb p) := by rw [hd]; rfl
    obtain ⟨h1, hp1, hg1, hv1⟩ := hg.add (o := o) hR hr hpe (by rw [← hname]; exact hno j (by simp)) (hentry ▸ hl)
    rw [← hentry] at hp1
    have hne : ∀ j' ∈ L, foldDn env.U (dnOf hb j') ≠ foldDn env.U (dnOf hb j) := by
      intro j' hj' e
      have := hgb.unique hR (hbel j' (by simp [hj'])).1 hj0 e
      subst this
      exact hpw.1 j' hj' (.refl j')
    obtain ⟨h2, hr2, hg2, hv2, hw2⟩ := ih h1 hg1 (fun j' hj' => hbel j' (by simp [hj'])) hpw.2 (by
      intro j' hj' e hv
      rcases (hv1 _ e).mp hv with hv | ⟨hv, _⟩
      · exact hno j' (by simp [hj']) e hv
      · exact hne j' hj' (by rw [hv, hname])) (by
      intro j' hj' p' k' hc'
      rcases hpar j' (by simp [hj']) p' k' hc' with hp | ⟨e, he⟩
      · rcases List.mem_cons.mp hp with rfl | hp
        · exact .inr ⟨_, (hv1 _ _).mpr (.inr ⟨hname, rfl⟩)⟩
        · exact .inl hp
      · exact .inr ⟨e, (hv1 _ _).mpr (.inl he)⟩) _ hops
    refine ⟨h2, ?_, hg2, fun y hy e => ?_, fun j' hj' m' hm' => ?_⟩
    · simp only [replay, hp1]
      exact hr2
    · rw [hv2 y (fun j' hj' => hy j' (by simp [hj'])) e, hv1]
      constructor
      · rintro (h | ⟨h, _⟩)
        · exact h
        · exact absurd (hname.trans h.symm) (hy j (by simp))
      · exact .inl
    · rcases List.mem_cons.mp hj' with rfl | hj'
      · rw [hm] at hm'; cases hm'
        refine ⟨_, (hv2 _ hne _).mpr ((hv1 _ _).mpr (.inr ⟨hname, rfl⟩)), fun k v => hvals _ k v⟩
      · exact hw2 j' hj' m' hm'

/-- Deleting entries, children first. -/
theorem delete_all (hR : Spelled env.U R) (hga : Good env.U R root ha) :
    ∀ (L : List Nat) (h : Heap), Good env.U R root h → (∀ j ∈ L, Below ha 0 j ∧ j ≠ 0) → L.Pairwise (fun a b => ¬ Below ha a b) →
      (∀ j ∈ L, ∃ e, View env.U h (foldDn env.U (dnOf ha j)) e) →
      (∀ j ∈ L, ∀ q e, View env.U h (q :: foldDn env.U (dnOf ha j)) e → ∃ j' ∈ L, foldDn env.U (dnOf ha j') = q :: foldDn env.U (dnOf ha j)) →
      ∀ ops, Each (Like env) ((entriesAt ha L).map fun e => .delete e.dn) ops → ∃ h', replay env o h ops = (h', none) ∧ Good env.U R root h' ∧
        ∀ y e, View env.U h' y e ↔ View env.U h y e ∧ ∀ j ∈ L, foldDn env.U (dnOf ha j) ≠ y := by
  intro L
  induction L with
  | nil => intro h hg _ _ _ _ ops hops; cases each_nil hops; exact ⟨h, rfl, hg, fun y e => by simp⟩
  | cons j L ih =>
    intro h hg hbel hpw hyes hleaf ops hops
    rw [List.pairwise_cons] at hpw
    obtain ⟨hj0, hj⟩ := hbel j (by simp)
    obtain ⟨m, hm, hvj⟩ := hga.below_view hj0
    have : entriesAt ha (j :: L) = m.entry :: entriesAt ha L := by simp [entriesAt, hm]
    rw [this, List.map_cons] at hops
    cases hops with | cons hop hops => ?_
    cases hop
    obtain ⟨e, he⟩ := hyes j (by simp)
    have hroot : foldDn env.U (dnOf ha j) ≠ root := by
      intro e'
      exact hj (hga.unique hR hj0 (.refl 0) (by rw [e', hga.rootName]))
    have hne : ∀ j' ∈ L, foldDn env.U (dnOf ha j') ≠ foldDn env.U (dnOf ha j) := by
      intro j' hj' e
      have := hga.unique hR (hbel j' (by simp [hj'])).1 hj0 e
      subst this
      exact hpw.1 j' hj' (.refl j')
    obtain ⟨h1, hp1, hg1, hv1⟩ := hg.delete (o := o) hR he hroot (by
      intro q e' hv
      obtain ⟨j', hj', hn'⟩ := hleaf j (by simp) q e' hv
      rcases List.mem_cons.mp hj' with rfl | hj'
      · have := congrArg List.length hn'
        simp at this
      · obtain ⟨m', hm', hv'⟩ := hga.below_view (hbel j' (by simp [hj'])).1
        rw [hn', dnOf_eq hm] at hv'
        obtain ⟨k, c, rdn, mc, hkc, hmc, he', hd, hq, _⟩ := (hga.child hR hm hj0).mp hv'
        have hch : ChildAs ha j k c := ⟨m, hm, hkc⟩
        obtain ⟨l, hl⟩ := hj0
        have hcj : c = j' := hga.unique hR ⟨_, path_append hl (.down hch (.here c))⟩ (hbel j' (by simp [hj'])).1
          (by rw [dnOf_eq hmc, dnOf_eq hm', he'])
        subst hcj
        exact hpw.1 c hj' ⟨_, .down hch (.here c)⟩)
    obtain ⟨h2, hr2, hg2, hv2⟩ := ih h1 hg1 (fun j' hj' => hbel j' (by simp [hj'])) hpw.2 (by
      intro j' hj'
      obtain ⟨e', he'⟩ := hyes j' (by simp [hj'])
      exact ⟨e', (hv1 _ _).mpr ⟨he', hne j' hj'⟩⟩) (by
      intro j' hj' q e' hv
      obtain ⟨hv, hnot⟩ := (hv1 _ _).mp hv
      obtain ⟨j'', hj'', hn''⟩ := hleaf j' (by simp [hj']) q e' hv
      rcases List.mem_cons.mp hj'' with rfl | hj''
      · exact absurd hn''.symm hnot
      · exact ⟨j'', hj'', hn''⟩) _ hops
    refine ⟨h2, ?_, hg2, fun y e => ?_⟩
    · rw [dnOf_eq hm] at hp1
      simp only [replay, hp1]
      exact hr2
    · rw [hv2, hv1]
      simp only [List.mem_cons, forall_eq_or_imp]
      constructor
      · rintro ⟨⟨a, b⟩, c⟩; exact ⟨a, fun e => b e.symm, c⟩
      · rintro ⟨a, b, c⟩; exact ⟨⟨a, fun e => b e.symm⟩, c⟩

end Verif.Tree
