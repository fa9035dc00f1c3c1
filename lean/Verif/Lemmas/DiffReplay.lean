import Verif.Lemmas.DiffTree
/-
Replaying the difference of two trees.
-/
namespace Verif.C27
open Verif.Dn Verif.Spec Verif.Tree
open Verif.C20 (HasValue Comparable)

/-- Two entries with the same values under the same names. -/
def SameValues (e e' : Entry) : Prop := ∀ k v, HasValue e k v ↔ HasValue e' k v

/-- Two trees that agree in what they have under a name. -/
def MatchAt (U : Unicode) (h hb : Heap) (y : Name) : Prop :=
  (∀ e, View U h y e → ∃ e', View U hb y e' ∧ SameValues e e') ∧ ∀ e', View U hb y e' → ∃ e, View U h y e ∧ SameValues e e'

theorem MatchAt.congr {U : Unicode} {h h' hb : Heap} {y : Name} (he : ∀ e, View U h' y e ↔ View U h y e) (hm : MatchAt U h hb y) :
    MatchAt U h' hb y := by
  unfold MatchAt
  simp only [he]
  exact hm

theorem suffix_eq {α : Type} {a b y : List α} (h1 : a <:+ y) (h2 : b <:+ y) (hl : a.length = b.length) : a = b :=
  (List.suffix_of_suffix_length_le h1 h2 (by omega)).eq_of_length hl

theorem suffix_step {α : Type} {x y : List α} (h : x <:+ y) (hne : y ≠ x) : ∃ q, q :: x <:+ y := by
  obtain ⟨t, rfl⟩ := h
  have : t ≠ [] := by
    rintro rfl
    exact hne rfl
  refine ⟨t.getLast this, ⟨t.dropLast, ?_⟩⟩
  rw [show t.getLast this :: x = [t.getLast this] ++ x from rfl, ← List.append_assoc, List.dropLast_concat_getLast]

/-- What an operation of the difference is made from. -/
inductive Known (U : Unicode) (ha hb : Heap) : TreeOp → Prop where
  | modify (i j : Nat) (n m : Node) (ms : List Mod) : Below ha 0 i → ha[i]? = some n → Below hb 0 j → hb[j]? = some m →
      Delta.diff U n.entry m.entry = .ok (some ms) → Known U ha hb (.modify n.entry.dn ms)
  | add (j : Nat) (m : Node) : Below hb 0 j → j ≠ 0 → hb[j]? = some m → Known U ha hb (.add m.entry)
  | delete (i : Nat) (n : Node) : Below ha 0 i → ha[i]? = some n → Known U ha hb (.delete n.entry.dn)

theorem reordered_trans {a b c : List Mod} (h1 : Delta.Reordered a b) (h2 : Delta.Reordered b c) : Delta.Reordered a c := by
  induction a generalizing b c with
  | nil =>
    cases b with
    | nil => exact h2
    | cons => exact h1.elim
  | cons x a ih =>
    cases b with
    | nil => exact h1.elim
    | cons y b =>
      cases c with
      | nil => exact h2.elim
      | cons z c =>
        obtain ⟨a1, a2, a3, a4⟩ := h1
        obtain ⟨b1, b2, b3, b4⟩ := h2
        exact ⟨a1.trans b1, a2.trans b2, a3.trans b3, ih a4 b4⟩

variable {env : Server.Env} {o : Orders} {h ha hb : Heap} {R : Rdn → Prop} {root : Name}

/-- Replaying differences for separate parts of the tree, one after the other. -/
theorem sequence {α : Type} (f : α → Py (List TreeOp)) (nm : α → Name) (ps : List α) (hnd : ps.Nodup)
    (hdis : ∀ p ∈ ps, ∀ q ∈ ps, ∀ y, nm p <:+ y → nm q <:+ y → p = q)
    (hf : ∀ p ∈ ps, ∃ ops, f p = .ok ops ∧ (∀ op ∈ ops, Known env.U ha hb op) ∧ ∀ ops', Each (Like env) ops ops' →
      ∀ h, Good env.U R root h → (∀ y e, nm p <:+ y → (View env.U h y e ↔ View env.U ha y e)) →
      ∃ h', replay env o h ops' = (h', none) ∧ Good env.U R root h' ∧ (∀ y e, ¬ nm p <:+ y → (View env.U h' y e ↔ View env.U h y e)) ∧
        ∀ y, nm p <:+ y → MatchAt env.U h' hb y) :
    ∃ opss, Ldap.mapM' f ps = .ok opss ∧ (∀ op ∈ opss.flatten, Known env.U ha hb op) ∧ ∀ ops', Each (Like env) opss.flatten ops' →
      ∀ h, Good env.U R root h → (∀ p ∈ ps, ∀ y e, nm p <:+ y → (View env.U h y e ↔ View env.U ha y e)) →
        ∃ h', replay env o h ops' = (h', none) ∧ Good env.U R root h' ∧
          (∀ y e, (∀ p ∈ ps, ¬ nm p <:+ y) → (View env.U h' y e ↔ View env.U h y e)) ∧
          ∀ p ∈ ps, ∀ y, nm p <:+ y → MatchAt env.U h' hb y := by
  induction ps with
  | nil =>
    refine ⟨[], rfl, fun op hop => by simp at hop, fun ops' hops h hg _ => ?_⟩
    cases each_nil hops
    exact ⟨h, rfl, hg, fun _ _ _ => Iff.rfl, fun p hp => by cases hp⟩
  | cons p ps ih =>
    rw [List.nodup_cons] at hnd
    obtain ⟨ops, h1, w1, h2⟩ := hf p (by simp)
    obtain ⟨opss, h3, w2, h4⟩ := ih hnd.2 (fun a ha b hb => hdis a (by simp [ha]) b (by simp [hb])) (fun q hq => hf q (by simp [hq]))
    refine ⟨ops :: opss, by simp [Ldap.mapM', h1, h3, bind, Except.bind, pure, Except.pure], fun op hop => ?_, fun ops' hops h hg hag => ?_⟩
    · rw [List.flatten_cons] at hop
      exact (List.mem_append.mp hop).elim (w1 op) (w2 op)
    rw [List.flatten_cons] at hops
    obtain ⟨l1, l2, rfl, e1, e2⟩ := each_split hops
    obtain ⟨g1, r1, hg1, out1, in1⟩ := h2 l1 e1 h hg (hag p (by simp))
    have sep : ∀ q ∈ ps, ∀ y, nm q <:+ y → ¬ nm p <:+ y := by
      intro q hq y hy hy'
      have := hdis p (by simp) q (by simp [hq]) y hy' hy
      exact hnd.1 (this ▸ hq)
    obtain ⟨g2, r2, hg2, out2, in2⟩ := h4 l2 e2 g1 hg1 fun q hq y e hy => by
      rw [out1 y e (sep q hq y hy)]
      exact hag q (by simp [hq]) y e hy
    refine ⟨g2, ?_, hg2, fun y e hy => ?_, fun q hq y hy => ?_⟩
    · rw [replay_append r1, r2]
    · rw [out2 y e fun q hq => hy q (by simp [hq]), out1 y e (hy p (by simp))]
    · rcases List.mem_cons.mp hq with rfl | hq
      · exact (in1 y hy).congr fun e => out2 y e fun q' hq' hy' => sep q' hq' y hy' hy
      · exact in2 q hq y hy

/-- Children chosen by their RDNs. -/
theorem picked {U : Unicode} {i : Nat} {dn : Dn} {mine : List Nat} {my : List Rdn}
    (hk : ∀ r ∈ my, R r ∧ ∃ c k, childWith U h mine r = .ok c ∧ ChildAs h i k c ∧ dnOf h c = r :: dn) {S : List Rdn} (hS : S.Nodup)
    (hsub : ∀ r ∈ S, r ∈ my) :
    ∃ cs, Ldap.mapM' (childWith U h mine) S = .ok cs ∧ cs.Nodup ∧ (∀ c ∈ cs, ∃ r ∈ S, ∃ k, ChildAs h i k c ∧ dnOf h c = r :: dn) ∧
      ∀ r ∈ S, ∃ c ∈ cs, dnOf h c = r :: dn := by
  obtain ⟨cs, h1, h2, h3⟩ := mapM'_pick (childWith U h mine) S fun r hr => by
    obtain ⟨_, c, k, hc, _⟩ := hk r (hsub r hr)
    exact ⟨c, hc⟩
  have key : ∀ r ∈ S, ∀ c, childWith U h mine r = .ok c → ∃ k, ChildAs h i k c ∧ dnOf h c = r :: dn := by
    intro r hr c hc
    obtain ⟨_, c', k, hc', h4, h5⟩ := hk r (hsub r hr)
    rw [hc] at hc'; cases hc'
    exact ⟨k, h4, h5⟩
  refine ⟨cs, h1, mapM'_nodup hS ?_ h1, fun c hc => ?_, fun r hr => ?_⟩
  · intro r hr r' hr' c hc hc'
    obtain ⟨_, _, e⟩ := key r hr c hc
    obtain ⟨_, _, e'⟩ := key r' hr' c hc'
    rw [e] at e'
    exact (List.cons.inj e').1
  · obtain ⟨r, hr, e⟩ := h2 c hc
    exact ⟨r, hr, key r hr c e⟩
  · obtain ⟨c, hc, e⟩ := h3 r hr
    obtain ⟨_, _, e'⟩ := key r hr c e
    exact ⟨c, hc, e'⟩

theorem reordered (hv : ∀ l, (o.values l).Perm l) (ms : List Mod) :
    Delta.Reordered ms (ms.map fun m => { m with values := o.values m.values }) := by
  induction ms with
  | nil => trivial
  | cons m ms ih => exact ⟨rfl, rfl, (hv _).symm, ih⟩

theorem below_of_suffix {U : Unicode} (hg : Good U R root h) (hR : Spelled U R) {c : Nat} (hc : Below h 0 c) : ∀ (c' : Nat), Below h 0 c' →
    foldDn U (dnOf h c) <:+ foldDn U (dnOf h c') → Below h c c' := by
  intro c'
  induction c' using Nat.strongRecOn with
  | ind c' ih =>
    intro hc' hs
    obtain ⟨l, hl⟩ := hc'
    rcases path_snoc hl with ⟨rfl, rfl⟩ | ⟨m, q, k, rfl, hm, hch⟩
    · have h2 := hc.suffix (U := U) hg.inv
      have := hg.unique hR hc (.refl 0) (hs.eq_of_length (Nat.le_antisymm hs.length_le h2.length_le))
      subst this
      exact .refl 0
    · obtain ⟨r, hd, _⟩ := hch.dn hg.inv
      rw [hd] at hs
      rcases List.suffix_cons_iff.mp hs with e | hs'
      · have := hg.unique hR hc ⟨_, hl⟩ (by rw [hd]; exact e)
        subst this
        exact .refl c
      · obtain ⟨l', hl'⟩ := ih q (hg.inv.lt hch) ⟨m, hm⟩ hs'
        exact ⟨_, path_append hl' (.down hch (.here c'))⟩

/-- The difference in the entry itself. -/
theorem entry_replay (hU : Sane env.U) (hR : Spelled env.U R) (hov : ∀ l, (o.values l).Perm l) {a b : Entry} (hc : Comparable a b)
    (hd : foldDn env.U a.dn = foldDn env.U b.dn) (hvb : View env.U hb (foldDn env.U a.dn) b) (hgb : Good env.U R root hb) :
    ∃ r, Delta.diff env.U a b = .ok r ∧ ∀ ops, Each (Like env) (match r with | none => [] | some ms => [TreeOp.modify a.dn ms]) ops →
      ∀ h, Good env.U R root h → View env.U h (foldDn env.U a.dn) a → ∃ h', replay env o h ops = (h', none) ∧ Good env.U R root h' ∧
        (∀ y e, y ≠ foldDn env.U a.dn → (View env.U h' y e ↔ View env.U h y e)) ∧ MatchAt env.U h' hb (foldDn env.U a.dn) := by
  have both : ∀ {h : Heap} {e : Entry}, Good env.U R root h → View env.U h (foldDn env.U a.dn) e → SameValues e b →
      MatchAt env.U h hb (foldDn env.U a.dn) := by
    intro h e hg hv hs
    refine ⟨fun e1 h1 => ⟨b, hvb, ?_⟩, fun e1 h1 => ⟨e, hv, ?_⟩⟩
    · rw [hg.view_unique hR h1 hv]; exact hs
    · rw [hgb.view_unique hR h1 hvb]; exact hs
  obtain ⟨r, hr, hi⟩ := C20.no_change_partial hU hc ((Dn.eq_iff env.U a.dn b.dn).mpr hd)
  refine ⟨r, hr, fun ops hops h hg hv => ?_⟩
  cases r with
  | none =>
    cases each_nil hops
    exact ⟨h, rfl, hg, fun _ _ _ => Iff.rfl, both hg hv (hi.mp rfl).2⟩
  | some ms =>
    cases hops with | cons hop hops => ?_
    cases each_nil hops
    cases hop with | modify _ _ ms' hms => ?_
    obtain ⟨e', h1, h2, h3⟩ := C20.diff_patch_partial hU hc hr (reordered_trans hms (reordered hov ms'))
    obtain ⟨h', p1, hg', v1⟩ := hg.modify hR hv h1 h2
    refine ⟨h', replay_one p1, hg', fun y e hy => ?_, both hg' ((v1 _ _).mpr (.inr ⟨rfl, rfl⟩)) h3⟩
    rw [v1]
    constructor
    · rintro (⟨_, h⟩ | ⟨h, _⟩)
      · exact h
      · exact absurd h hy
    · exact fun h => .inl ⟨hy, h⟩

/-- The difference of two subtrees of one name, replayed on a tree that has the first of them. -/
theorem loop_replay {o' : Orders} (hU : Sane env.U) (hR : Spelled env.U R) (hor : ∀ l, (o.rdns l).Perm l) (hov : ∀ l, (o'.values l).Perm l)
    (hga : Good env.U R root ha) (hgb : Good env.U R root hb)
    (hcmp : ∀ i j na nb, Below ha 0 i → ha[i]? = some na → Below hb 0 j → hb[j]? = some nb → Comparable na.entry nb.entry) :
    ∀ (fuel i j : Nat) (na nb : Node), Below ha 0 i → ha[i]? = some na → Below hb 0 j → hb[j]? = some nb →
      foldDn env.U na.entry.dn = foldDn env.U nb.entry.dn → ha.length < fuel + i →
      ∃ ops, diffTreeLoop env.U o ha hb fuel i j = .ok ops ∧ (∀ op ∈ ops, Known env.U ha hb op) ∧ ∀ ops', Each (Like env) ops ops' →
        ∀ h, Good env.U R root h → (∀ y e, foldDn env.U na.entry.dn <:+ y → (View env.U h y e ↔ View env.U ha y e)) →
          ∃ h', replay env o' h ops' = (h', none) ∧ Good env.U R root h' ∧
            (∀ y e, ¬ foldDn env.U na.entry.dn <:+ y → (View env.U h' y e ↔ View env.U h y e)) ∧
            ∀ y, foldDn env.U na.entry.dn <:+ y → MatchAt env.U h' hb y := by
  intro fuel
  induction fuel with
  | zero =>
    intro i j na nb _ hna _ _ _ hf
    have := (List.getElem?_eq_some_iff.mp hna).1
    omega
  | succ fuel ih =>
    intro i j na nb hi hna hj hnb hx hf
    have hva : View env.U ha (foldDn env.U na.entry.dn) na.entry := ⟨i, na, hi, hna, rfl, rfl⟩
    have hvb : View env.U hb (foldDn env.U na.entry.dn) nb.entry := ⟨j, nb, hj, hnb, hx.symm, rfl⟩
    have hroot : root <:+ foldDn env.U na.entry.dn := hga.view_root hva
    obtain ⟨rd, hrd, step1⟩ := entry_replay (hb := hb) hU hR hov (hcmp i j na nb hi hna hj hnb) hx hvb hgb
    obtain ⟨my, hmy, kmy, fmy⟩ := hga.kids hR hna hi
    obtain ⟨their, htheir, kth, fth⟩ := hgb.kids hR hnb hj
    generalize hX : foldDn env.U na.entry.dn = x at *
    -- what the zones contain
    have FA : ∀ {y e q}, View env.U ha y e → q :: x <:+ y → ∃ r ∈ my, foldRdn env.U r = q := by
      intro y e q hv hs
      obtain ⟨e', he'⟩ := hga.view_suffix hv hs (Nat.le_trans hroot.length_le (by simp))
      exact fmy q e' he'
    have FB : ∀ {y e q}, View env.U hb y e → q :: x <:+ y → ∃ r ∈ their, foldRdn env.U r = q := by
      intro y e q hv hs
      obtain ⟨e', he'⟩ := hgb.view_suffix hv hs (Nat.le_trans hroot.length_le (by simp))
      rw [hx] at he'
      exact fth q e' he'
    have zone : ∀ {r r' y}, R r → R r' → foldRdn env.U r :: x <:+ y → foldRdn env.U r' :: x <:+ y → r = r' := by
      intro r r' y h1 h2 s1 s2
      exact hR.alike _ _ h1 h2 (List.cons.inj (suffix_eq s1 s2 (by simp))).1
    have notself : ∀ {q}, ¬ q :: x <:+ x := fun hs => by
      have := hs.length_le
      rw [List.length_cons] at this
      omega
    -- common children
    have hSc : (o.rdns ((rdnSet my).filter (· ∈ their))).Nodup := (hor _).nodup_iff.mpr ((rdnSet_nodup my).filter _)
    have mSc : ∀ r, r ∈ o.rdns ((rdnSet my).filter (· ∈ their)) ↔ r ∈ my ∧ r ∈ their := by
      intro r; rw [(hor _).mem_iff]; simp [mem_rdnSet]
    have pairOk : ∀ r, r ∈ my → r ∈ their → ∃ c d k k', childWith env.U ha (na.children.map (·.2)) r = .ok c ∧
        childWith env.U hb (nb.children.map (·.2)) r = .ok d ∧ ChildAs ha i k c ∧ dnOf ha c = r :: na.entry.dn ∧
        ChildAs hb j k' d ∧ dnOf hb d = r :: nb.entry.dn := by
      intro r h1 h2
      obtain ⟨_, c, k, a1, a2, a3⟩ := kmy r h1
      obtain ⟨_, d, k', b1, b2, b3⟩ := kth r h2
      exact ⟨c, d, k, k', a1, b1, a2, a3, b2, b3⟩
    obtain ⟨common, hco, co1, co2⟩ := mapM'_pick (fun r => (do
        return (← childWith env.U ha (na.children.map (·.2)) r, ← childWith env.U hb (nb.children.map (·.2)) r) : Py (Nat × Nat)))
        (o.rdns ((rdnSet my).filter (· ∈ their))) (by
      intro r hr
      obtain ⟨c, d, _, _, a1, b1, _⟩ := pairOk r ((mSc r).mp hr).1 ((mSc r).mp hr).2
      exact ⟨(c, d), by simp [a1, b1, bind, Except.bind, pure, Except.pure]⟩)
    have pairSpec : ∀ r p, r ∈ my → r ∈ their → (do
        return (← childWith env.U ha (na.children.map (·.2)) r, ← childWith env.U hb (nb.children.map (·.2)) r) : Py (Nat × Nat)) = .ok p →
        ∃ k k', ChildAs ha i k p.1 ∧ dnOf ha p.1 = r :: na.entry.dn ∧ ChildAs hb j k' p.2 ∧ dnOf hb p.2 = r :: nb.entry.dn := by
      intro r p h1 h2 he
      obtain ⟨c, d, k, k', a1, b1, a2, a3, b2, b3⟩ := pairOk r h1 h2
      simp only [a1, b1, bind, Except.bind, pure, Except.pure, Except.ok.injEq] at he
      subst he
      exact ⟨k, k', a2, a3, b2, b3⟩
    have conm : ∀ p ∈ common, ∃ r k k', r ∈ my ∧ r ∈ their ∧ ChildAs ha i k p.1 ∧ dnOf ha p.1 = r :: na.entry.dn ∧
        ChildAs hb j k' p.2 ∧ dnOf hb p.2 = r :: nb.entry.dn := by
      intro p hp
      obtain ⟨r, hr, he⟩ := co1 p hp
      obtain ⟨k, k', h⟩ := pairSpec r p ((mSc r).mp hr).1 ((mSc r).mp hr).2 he
      exact ⟨r, k, k', ((mSc r).mp hr).1, ((mSc r).mp hr).2, h⟩
    have cond : common.Nodup := by
      refine mapM'_nodup hSc ?_ hco
      intro r hr r' hr' p hp hp'
      obtain ⟨_, _, _, e, _⟩ := pairSpec r p ((mSc r).mp hr).1 ((mSc r).mp hr).2 hp
      obtain ⟨_, _, _, e', _⟩ := pairSpec r' p ((mSc r').mp hr').1 ((mSc r').mp hr').2 hp'
      rw [e] at e'
      exact (List.cons.inj e').1
    have bela : ∀ {c k}, ChildAs ha i k c → Below ha 0 c := by
      intro c k hc
      obtain ⟨l, hl⟩ := hi
      exact ⟨_, path_append hl (.down hc (.here c))⟩
    have belb : ∀ {c k}, ChildAs hb j k c → Below hb 0 c := by
      intro c k hc
      obtain ⟨l, hl⟩ := hj
      exact ⟨_, path_append hl (.down hc (.here c))⟩
    have namea : ∀ {c r}, dnOf ha c = r :: na.entry.dn → foldDn env.U (dnOf ha c) = foldRdn env.U r :: x := by
      intro c r e; rw [e, ← hX]; rfl
    have nameb : ∀ {c r}, dnOf hb c = r :: nb.entry.dn → foldDn env.U (dnOf hb c) = foldRdn env.U r :: x := by
      intro c r e; rw [e, hx]; rfl
    obtain ⟨opss, hopss, known2, step2⟩ := sequence (ha := ha) (hb := hb) (o := o') (R := R) (root := root)
      (fun p : Nat × Nat => diffTreeLoop env.U o ha hb fuel p.1 p.2)
      (fun p => foldDn env.U (dnOf ha p.1)) common cond (by
        intro p hp q hq y s1 s2
        obtain ⟨r, _, _, h1, _, c1, e1, d1, f1⟩ := conm p hp
        obtain ⟨r', _, _, h2, _, c2, e2, d2, f2⟩ := conm q hq
        simp only [namea e1, namea e2] at s1 s2
        have := zone (kmy r h1).1 (kmy r' h2).1 s1 s2
        subst this
        have hl := hga.unique hR (bela c1) (bela c2) (by rw [e1, e2])
        have hr := hgb.unique hR (belb d1) (belb d2) (by rw [f1, f2])
        exact Prod.ext hl hr) (by
        intro p hp
        obtain ⟨r, k, k', h1, h2, c1, e1, d1, f1⟩ := conm p hp
        obtain ⟨ma, hma, _⟩ := hga.below_view (bela c1)
        obtain ⟨mb, hmb, _⟩ := hgb.below_view (belb d1)
        have := hga.inv.lt c1
        obtain ⟨ops, h1, hk, h2⟩ := ih p.1 p.2 ma mb (bela c1) hma (belb d1) hmb
          (by rw [← dnOf_eq hma, ← dnOf_eq hmb, namea e1, nameb f1]) (by omega)
        rw [← dnOf_eq hma] at h2
        exact ⟨ops, h1, hk, h2⟩)
    -- added and deleted children
    have hSa : (o.rdns ((rdnSet their).filter (· ∉ my))).Nodup := (hor _).nodup_iff.mpr ((rdnSet_nodup their).filter _)
    have mSa : ∀ r, r ∈ o.rdns ((rdnSet their).filter (· ∉ my)) ↔ r ∈ their ∧ r ∉ my := by
      intro r; rw [(hor _).mem_iff]; simp [mem_rdnSet]
    have hSd : (o.rdns ((rdnSet my).filter (· ∉ their))).Nodup := (hor _).nodup_iff.mpr ((rdnSet_nodup my).filter _)
    have mSd : ∀ r, r ∈ o.rdns ((rdnSet my).filter (· ∉ their)) ↔ r ∈ my ∧ r ∉ their := by
      intro r; rw [(hor _).mem_iff]; simp [mem_rdnSet]
    obtain ⟨ad, had, adnd, ad1, ad2⟩ := picked kth hSa fun r hr => ((mSa r).mp hr).1
    obtain ⟨de, hde, dend, de1, de2⟩ := picked kmy hSd fun r hr => ((mSd r).mp hr).1
    simp only [bind, Except.bind, pure, Except.pure] at hco
    refine ⟨_, by
      simp only [diffTreeLoop, hna, hnb, hrd, hmy, htheir, hco, hopss, had, hde, bind, Except.bind, pure, Except.pure]
      rfl, ?_⟩
    obtain ⟨aM, aP⟩ := subtrees_spec (cs := ad) hgb.inv (fun c hc => by obtain ⟨r, _, k, hk, _⟩ := ad1 c hc; exact ⟨k, hk⟩) adnd
      (fun l => l) (fun _ _ => Iff.rfl) (fun a b => ¬ Below hb b a) (fun c hc => by
        obtain ⟨r, _, k, hk, _⟩ := ad1 c hc
        exact (subtree_spec hgb.inv (hk.lt_length hgb.inv)).2) (fun _ _ _ h => h)
    obtain ⟨dM, dP⟩ := subtrees_spec (cs := de) hga.inv (fun c hc => by obtain ⟨r, _, k, hk, _⟩ := de1 c hc; exact ⟨k, hk⟩) dend
      (fun l => l.reverse) (fun _ _ => List.mem_reverse) (fun a b => ¬ Below ha a b) (fun c hc => by
        obtain ⟨r, _, k, hk, _⟩ := de1 c hc
        rw [List.pairwise_reverse]
        exact (subtree_spec hga.inv (hk.lt_length hga.inv)).2) (fun _ _ h _ => h)
    rw [addedOps_eq, deletedOps_eq]
    generalize ad.flatMap (fun c => subtree hb c) = LA at *
    generalize de.flatMap (fun c => (subtree ha c).reverse) = LD at *
    have bA : ∀ c ∈ LA, Below hb 0 c ∧ c ≠ 0 := by
      intro c hc
      obtain ⟨c', hc', l, hl⟩ := (aM c).mp hc
      obtain ⟨r, hr, k, hk, hd⟩ := ad1 c' hc'
      obtain ⟨l', hl'⟩ := belb hk
      refine ⟨⟨_, path_append hl' hl⟩, ?_⟩
      rintro rfl
      have := hgb.inv.path_le hl
      have := hgb.inv.lt hk
      omega
    have bD : ∀ c ∈ LD, Below ha 0 c ∧ c ≠ 0 := by
      intro c hc
      obtain ⟨c', hc', l, hl⟩ := (dM c).mp hc
      obtain ⟨r, hr, k, hk, hd⟩ := de1 c' hc'
      obtain ⟨l', hl'⟩ := bela hk
      refine ⟨⟨_, path_append hl' hl⟩, ?_⟩
      rintro rfl
      have := hga.inv.path_le hl
      have := hga.inv.lt hk
      omega
    refine ⟨fun op hop => ?_, fun ops' hops h hg hag => ?_⟩
    · rcases List.mem_append.mp hop with hop | hop
      · rcases List.mem_append.mp hop with hop | hop
        · rcases List.mem_append.mp hop with hop | hop
          · cases rd with
            | none => simp at hop
            | some ms =>
              cases List.mem_singleton.mp hop
              exact .modify i j na nb ms hi hna hj hnb hrd
          · exact known2 op hop
        · obtain ⟨e, he, rfl⟩ := List.mem_map.mp hop
          obtain ⟨c, hc, he⟩ := List.mem_filterMap.mp he
          cases hm : hb[c]? with
          | none => rw [hm] at he; cases he
          | some m =>
            rw [hm] at he; cases he
            exact .add c m (bA c hc).1 (bA c hc).2 hm
      · obtain ⟨e, he, rfl⟩ := List.mem_map.mp hop
        obtain ⟨c, hc, he⟩ := List.mem_filterMap.mp he
        cases hm : ha[c]? with
        | none => rw [hm] at he; cases he
        | some m =>
          rw [hm] at he; cases he
          exact .delete c m (bD c hc).1 hm
    rw [List.append_assoc, List.append_assoc] at hops
    obtain ⟨o1, _, rfl, eo1, hops⟩ := each_split hops
    obtain ⟨o2, _, rfl, eo2, hops⟩ := each_split hops
    obtain ⟨o3, o4, rfl, eo3, eo4⟩ := each_split hops
    have nA : ∀ c ∈ LA, ∃ r ∈ their, r ∉ my ∧ foldRdn env.U r :: x <:+ foldDn env.U (dnOf hb c) := by
      intro c hc
      obtain ⟨c', hc', hb'⟩ := (aM c).mp hc
      obtain ⟨r, hr, _, _, hd⟩ := ad1 c' hc'
      exact ⟨r, ((mSa r).mp hr).1, ((mSa r).mp hr).2, by rw [← nameb hd]; exact hb'.suffix hgb.inv⟩
    have nD : ∀ c ∈ LD, ∃ r ∈ my, r ∉ their ∧ foldRdn env.U r :: x <:+ foldDn env.U (dnOf ha c) := by
      intro c hc
      obtain ⟨c', hc', hb'⟩ := (dM c).mp hc
      obtain ⟨r, hr, _, _, hd⟩ := de1 c' hc'
      exact ⟨r, ((mSd r).mp hr).1, ((mSd r).mp hr).2, by rw [← namea hd]; exact hb'.suffix hga.inv⟩
    have nC : ∀ p ∈ common, ∃ r ∈ my, r ∈ their ∧ foldDn env.U (dnOf ha p.1) = foldRdn env.U r :: x := by
      intro p hp
      obtain ⟨r, _, _, h1, h2, _, e, _⟩ := conm p hp
      exact ⟨r, h1, h2, namea e⟩
    have Rm : ∀ {r}, r ∈ my → R r := fun hr => (kmy _ hr).1
    have Rt : ∀ {r}, r ∈ their → R r := fun hr => (kth _ hr).1
    -- the four steps
    obtain ⟨h1, r1, g1, out1, in1⟩ := step1 o1 eo1 h hg ((hag _ _ (List.suffix_refl _)).mpr hva)
    have v1 : ∀ {y e q}, q :: x <:+ y → (View env.U h1 y e ↔ View env.U ha y e) := by
      intro y e q hq
      rw [out1 y e (by rintro rfl; exact notself hq), hag y e ((List.suffix_cons q x).trans hq)]
    obtain ⟨h2, r2, g2, out2, in2⟩ := step2 o2 eo2 h1 g1 fun p hp y e hy => by
      obtain ⟨r, _, _, e'⟩ := nC p hp
      simp only [e'] at hy
      exact v1 hy
    have v2 : ∀ {y e r}, r ∈ my ∨ r ∈ their → ¬ (r ∈ my ∧ r ∈ their) → foldRdn env.U r :: x <:+ y → (View env.U h2 y e ↔ View env.U ha y e) := by
      intro y e r hr hn hs
      rw [out2 y e, v1 hs]
      intro p hp hs'
      obtain ⟨r', h1, h2, e'⟩ := nC p hp
      simp only [e'] at hs'
      have := zone (hr.elim Rm Rt) (Rm h1) hs hs'
      subst this
      exact hn ⟨h1, h2⟩
    obtain ⟨h3, r3, g3, out3, in3⟩ := add_all (o := o') hR hgb LA h2 g2 bA aP (by
      intro c hc e hv
      obtain ⟨r, hr, hr', hs⟩ := nA c hc
      rw [v2 (.inr hr) (fun h => hr' h.1) hs] at hv
      obtain ⟨r'', hr'', e'⟩ := FA hv hs
      have := hR.alike _ _ (Rm hr'') (Rt hr) e'
      subst this
      exact hr' hr'') (by
      intro c hc p k hp
      obtain ⟨c', hc', l, hl⟩ := (aM c).mp hc
      rcases path_snoc hl with ⟨rfl, rfl⟩ | ⟨m', q, k', rfl, hm', hcq⟩
      · obtain ⟨r, hr, k', hk, hd⟩ := ad1 _ hc'
        have hpj : p = j := by
          obtain ⟨n1, hn1, hm1⟩ := hp
          obtain ⟨n2, hn2, hm2⟩ := hk
          obtain ⟨_, m1, _, e1, e2, _⟩ := hgb.inv.links _ _ _ _ hn1 hm1
          obtain ⟨_, m2, _, e3, e4, _⟩ := hgb.inv.links _ _ _ _ hn2 hm2
          rw [e1] at e3; cases e3
          rw [e2] at e4
          exact Option.some.inj e4
        subst hpj
        rw [dnOf_eq hnb, ← hx]
        obtain ⟨e', _, _⟩ := in1.2 _ hvb |>.imp fun e' h => h
        refine .inr ⟨e', ?_⟩
        rw [out2]
        · assumption
        · intro p hp hs
          obtain ⟨_, _, _, e'⟩ := nC p hp
          rw [e'] at hs
          exact notself hs
      · have : p = q := by
          obtain ⟨n1, hn1, hm1⟩ := hp
          obtain ⟨n2, hn2, hm2⟩ := hcq
          obtain ⟨_, m1, _, e1, e2, _⟩ := hgb.inv.links _ _ _ _ hn1 hm1
          obtain ⟨_, m2, _, e3, e4, _⟩ := hgb.inv.links _ _ _ _ hn2 hm2
          rw [e1] at e3; cases e3
          rw [e2] at e4
          exact Option.some.inj e4
        subst this
        exact .inl ((aM p).mpr ⟨c', hc', _, hm'⟩)) o3 eo3
    have v3 : ∀ {y e r}, r ∈ my → r ∉ their → foldRdn env.U r :: x <:+ y → (View env.U h3 y e ↔ View env.U ha y e) := by
      intro y e r hr hn hs
      rw [out3 y, v2 (.inl hr) (fun h => hn h.2) hs]
      rintro c hc rfl
      obtain ⟨r', h1, h2, hs'⟩ := nA c hc
      have := zone (Rm hr) (Rt h1) hs hs'
      subst this
      exact hn h1
    have covered : ∀ {y e r}, View env.U ha y e → r ∈ my → r ∉ their → foldRdn env.U r :: x <:+ y → ∃ c ∈ LD, foldDn env.U (dnOf ha c) = y := by
      intro y e r hv hr hn hs
      obtain ⟨c, hc, hd⟩ := de2 r ((mSd r).mpr ⟨hr, hn⟩)
      obtain ⟨_, _, k, hk, _⟩ := de1 c hc
      rw [← namea hd] at hs
      obtain ⟨c', m, hb', hm, hy, _⟩ := hv
      refine ⟨c', (dM c').mpr ⟨c, hc, ?_⟩, by rw [dnOf_eq hm, hy]⟩
      exact below_of_suffix hga hR (bela hk) _ hb' (by rw [dnOf_eq hm, hy]; exact hs)
    obtain ⟨h4, r4, g4, out4⟩ := delete_all (o := o') hR hga LD h3 g3 bD dP (by
      intro c hc
      obtain ⟨r, hr, hr', hs⟩ := nD c hc
      obtain ⟨c', hc', l, hl⟩ := (dM c).mp hc
      obtain ⟨_, _, k, hk, hd⟩ := de1 c' hc'
      obtain ⟨l', hl'⟩ := bela hk
      obtain ⟨m, _, hv⟩ := hga.below_view (U := env.U) ⟨_, path_append hl' hl⟩
      exact ⟨_, (v3 hr hr' hs).mpr hv⟩) (by
      intro c hc q e hv
      obtain ⟨r, hr, hr', hs⟩ := nD c hc
      have hs' := hs.trans (List.suffix_cons q _)
      rw [v3 hr hr' hs'] at hv
      exact covered hv hr hr' hs') o4 eo4
    refine ⟨h4, ?_, g4, fun y e hy => ?_, fun y hy => ?_⟩
    · refine (replay_append r1).trans ?_
      rw [replay_append r2, replay_append r3]
      exact r4
    · -- outside
      have hno : ∀ q, ¬ q :: x <:+ y := fun q hq => hy ((List.suffix_cons q x).trans hq)
      rw [out4, out3, out2, out1]
      · refine and_iff_left ?_
        rintro c hc rfl
        obtain ⟨_, _, _, hs⟩ := nD c hc
        exact hno _ hs
      · rintro rfl; exact hy (List.suffix_refl _)
      · intro p hp hs
        obtain ⟨_, _, _, e'⟩ := nC p hp
        simp only [e'] at hs
        exact hno _ hs
      · rintro c hc rfl
        obtain ⟨_, _, _, hs⟩ := nA c hc
        exact hno _ hs
    · by_cases hyx : y = x
      · subst hyx
        refine in1.congr fun e => ?_
        rw [out4, out3, out2]
        · refine and_iff_left ?_
          intro c hc e'
          obtain ⟨_, _, _, hs⟩ := nD c hc
          exact notself (e' ▸ hs)
        · intro p hp hs
          obtain ⟨_, _, _, e'⟩ := nC p hp
          simp only [e'] at hs
          exact notself hs
        · intro c hc e'
          obtain ⟨_, _, _, hs⟩ := nA c hc
          exact notself (e' ▸ hs)
      · obtain ⟨q, hq⟩ := suffix_step hy hyx
        by_cases hA : ∃ r, (r ∈ my ∨ r ∈ their) ∧ foldRdn env.U r = q
        · obtain ⟨r, hr, rfl⟩ := hA
          by_cases hm : r ∈ my
          · by_cases ht : r ∈ their
            · -- a common child
              obtain ⟨p, hp, he⟩ := co2 r ((mSc r).mpr ⟨hm, ht⟩)
              obtain ⟨_, _, _, hd, _⟩ := pairSpec r p hm ht he
              refine (in2 p hp y (by simp only [namea hd]; exact hq)).congr fun e => ?_
              rw [out4, out3]
              · refine and_iff_left ?_
                rintro c hc rfl
                obtain ⟨r', h1, h2, hs⟩ := nD c hc
                have := zone (Rm hm) (Rm h1) hq hs
                subst this
                exact h2 ht
              · rintro c hc rfl
                obtain ⟨r', h1, h2, hs⟩ := nA c hc
                have := zone (Rm hm) (Rt h1) hq hs
                subst this
                exact h2 hm
            · -- a deleted child
              refine ⟨fun e hv => ?_, fun e hv => ?_⟩
              · obtain ⟨hv, hn⟩ := (out4 _ _).mp hv
                rw [v3 hm ht hq] at hv
                obtain ⟨c, hc, e'⟩ := covered hv hm ht hq
                exact absurd e' (hn c hc)
              · obtain ⟨r', hr', e'⟩ := FB hv hq
                have := hR.alike _ _ (Rt hr') (Rm hm) e'
                subst this
                exact absurd hr' ht
          · -- an added child
            have ht : r ∈ their := hr.resolve_left hm
            have h43 : ∀ e, View env.U h4 y e ↔ View env.U h3 y e := by
              intro e
              rw [out4]
              refine and_iff_left ?_
              rintro c hc rfl
              obtain ⟨r', h1, h2, hs⟩ := nD c hc
              have := zone (Rt ht) (Rm h1) hq hs
              subst this
              exact h2 ht
            refine MatchAt.congr h43 ?_
            have hnew : ∀ e, View env.U hb y e → ∃ e', View env.U h3 y e' ∧ SameValues e' e := by
              rintro e ⟨c, m, hc, hm', hy', rfl⟩
              obtain ⟨c', hc', hd⟩ := ad2 r ((mSa r).mpr ⟨ht, hm⟩)
              obtain ⟨_, _, k, hk, _⟩ := ad1 c' hc'
              have hin : c ∈ LA := (aM c).mpr ⟨c', hc', below_of_suffix hgb hR (belb hk) _ hc
                (by rw [nameb hd, dnOf_eq hm', hy']; exact hq)⟩
              obtain ⟨e', h1, h2⟩ := in3 c hin m hm'
              rw [dnOf_eq hm', hy'] at h1
              exact ⟨e', h1, h2⟩
            refine ⟨fun e hv => ?_, hnew⟩
            by_cases hin : ∃ c ∈ LA, foldDn env.U (dnOf hb c) = y
            · obtain ⟨c, hc, e1⟩ := hin
              obtain ⟨c', hc', l, hl⟩ := (aM c).mp hc
              obtain ⟨_, _, k, hk, _⟩ := ad1 c' hc'
              obtain ⟨l', hl'⟩ := belb hk
              obtain ⟨m, _, hvm⟩ := hgb.below_view (U := env.U) ⟨_, path_append hl' hl⟩
              rw [e1] at hvm
              obtain ⟨e', h1, h2⟩ := hnew _ hvm
              exact ⟨_, hvm, by rw [g3.view_unique hR hv h1]; exact h2⟩
            · rw [out3 y (fun c hc e' => hin ⟨c, hc, e'⟩), v2 (.inr ht) (fun h => hm h.1) hq] at hv
              obtain ⟨r', hr', e'⟩ := FA hv hq
              have := hR.alike _ _ (Rm hr') (Rt ht) e'
              subst this
              exact absurd hr' hm
        · -- nothing on either side
          refine ⟨fun e hv => ?_, fun e hv => ?_⟩
          · have hv := ((out4 _ _).mp hv).1
            rw [out3, out2, v1 hq] at hv
            · obtain ⟨r, hr, e'⟩ := FA hv hq
              exact absurd ⟨r, .inl hr, e'⟩ hA
            · intro p hp hs
              obtain ⟨r, h1, _, e'⟩ := nC p hp
              simp only [e'] at hs
              exact hA ⟨r, .inl h1, (List.cons.inj (suffix_eq hs hq (by simp))).1⟩
            · rintro c hc rfl
              obtain ⟨r, h1, _, hs⟩ := nA c hc
              exact hA ⟨r, .inr h1, (List.cons.inj (suffix_eq hs hq (by simp))).1⟩
          · obtain ⟨r, hr, e'⟩ := FB hv hq
            exact absurd ⟨r, .inr hr, e'⟩ hA

end Verif.C27
