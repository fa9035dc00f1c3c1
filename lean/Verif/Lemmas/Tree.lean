import Verif.Spec.Tree
/-
The invariant of the in-memory tree: children are younger than their parent.
-/
namespace Verif.Tree
open Verif.Dn Verif.Spec

theorem childAs_of {h : Heap} {i c : Nat} {k : Str} (w : (k, c) ∈ ((h[i]?).map Node.children).getD []) : ChildAs h i k c := by
  cases hn : h[i]? with
  | none => simp [hn] at w
  | some n => exact ⟨n, hn, by simpa [hn] using w⟩

/-- What every call preserves. -/
structure Inv (h : Heap) : Prop where
  links : ∀ (i : Nat) (n : Node) k c, h[i]? = some n → (k, c) ∈ n.children →
    i < c ∧ ∃ (m : Node) (rdn : Rdn), h[c]? = some m ∧ m.parent = some i ∧ m.entry.dn = rdn :: n.entry.dn ∧ k = Rdn.text rdn
  siblings : ∀ (i : Nat) (n : Node), h[i]? = some n → (n.children.map (·.1)).Nodup

theorem Inv.nodes {h : Heap} (hv : Inv h) {i : Nat} {n : Node} (hi : h[i]? = some n) : (n.children.map (·.2)).Nodup := by
  have h1 := hv.siblings i n hi
  have h2 : ∀ p ∈ n.children, ∀ q ∈ n.children, p.2 = q.2 → p.1 = q.1 := by
    intro p hp q hq e
    obtain ⟨_, m, r, hm, _, hd, hk⟩ := hv.links i n p.1 p.2 hi hp
    obtain ⟨_, m', r', hm', _, hd', hk'⟩ := hv.links i n q.1 q.2 hi hq
    rw [← e, hm] at hm'
    cases hm'
    rw [hd] at hd'
    rw [hk, hk', (List.cons.inj hd').1]
  generalize n.children = l at h1 h2
  induction l with
  | nil => simp
  | cons p l ih =>
    simp only [List.map_cons, List.nodup_cons] at h1 ⊢
    refine ⟨fun hm => ?_, ih h1.2 (fun p hp q hq => h2 p (by simp [hp]) q (by simp [hq]))⟩
    obtain ⟨q, hq, e⟩ := List.mem_map.mp hm
    exact h1.1 (List.mem_map.mpr ⟨q, hq, h2 q (by simp [hq]) p (by simp) e⟩)

theorem Inv.parent {h : Heap} (hv : Inv h) {i i' c : Nat} {k k' : Str} (h1 : ChildAs h i k c) (h2 : ChildAs h i' k' c) :
    i = i' := by
  obtain ⟨n, hn, hc⟩ := h1
  obtain ⟨n', hn', hc'⟩ := h2
  obtain ⟨_, m, r, hm, hp, _⟩ := hv.links i n k c hn hc
  obtain ⟨_, m', r', hm', hp', _⟩ := hv.links i' n' k' c hn' hc'
  rw [hm] at hm'
  cases hm'
  rw [hp] at hp'
  exact Option.some.inj hp'

theorem Inv.lt {h : Heap} (hv : Inv h) {i c : Nat} {k : Str} (h1 : ChildAs h i k c) : i < c := by
  obtain ⟨n, hn, hc⟩ := h1
  exact (hv.links i n k c hn hc).1

theorem path_snoc {h : Heap} {i j : Nat} {l : List Nat} (hp : Path h i l j) :
    (l = [] ∧ i = j) ∨ ∃ l' p k, l = l' ++ [j] ∧ Path h i l' p ∧ ChildAs h p k j := by
  induction hp with
  | here i => exact .inl ⟨rfl, rfl⟩
  | @down i c j k l hc hp ih =>
    rcases ih with ⟨rfl, rfl⟩ | ⟨l', p, k', rfl, hp', hc'⟩
    · exact .inr ⟨[], i, k, rfl, .here _, hc⟩
    · exact .inr ⟨c :: l', p, k', rfl, .down hc hp', hc'⟩

theorem path_append {h : Heap} {i j k : Nat} {l m : List Nat} (h1 : Path h i l j) (h2 : Path h j m k) :
    Path h i (l ++ m) k := by
  induction h1 with
  | here => exact h2
  | down hc _ ih => exact .down hc (ih h2)

theorem Inv.path_le {h : Heap} (hv : Inv h) {i j : Nat} {l : List Nat} (hp : Path h i l j) : i + l.length ≤ j := by
  induction hp with
  | here => simp
  | down hc _ ih => have := hv.lt hc; simp only [List.length_cons]; omega

theorem Inv.once {h : Heap} (hv : Inv h) {i : Nat} : ∀ (n j : Nat) (l l' : List Nat), l.length ≤ n → Path h i l j →
    Path h i l' j → l = l' := by
  intro n
  induction n with
  | zero =>
    intro j l l' hl h1 h2
    rw [List.length_eq_zero_iff.mp (Nat.le_zero.mp hl)] at h1 ⊢
    cases h1
    have := hv.path_le h2
    exact (List.length_eq_zero_iff.mp (by omega)).symm
  | succ n ih =>
    intro j l l' hl h1 h2
    rcases path_snoc h1 with ⟨rfl, rfl⟩ | ⟨m, p, k, rfl, hm, hc⟩
    · have := hv.path_le h2
      exact (List.length_eq_zero_iff.mp (by omega)).symm
    · rcases path_snoc h2 with ⟨rfl, rfl⟩ | ⟨m', p', k', rfl, hm', hc'⟩
      · have := hv.path_le h1; simp at this; omega
      · have := hv.parent hc hc'
        subst this
        rw [ih p m m' (by simp at hl; omega) hm hm']

theorem Inv.consistent {h : Heap} (hv : Inv h) {root : Nat} (hr : ∃ n, h[root]? = some n ∧ n.parent = none) :
    Consistent h root := by
  refine ⟨hr, fun i n k c hi hc => (hv.links i n k c hi hc).2, ?_, hv.siblings, fun j l l' h1 h2 =>
    hv.once l.length j l l' (Nat.le_refl _) h1 h2⟩
  rintro j ⟨l, hp⟩ hj
  rcases path_snoc hp with ⟨rfl, rfl⟩ | ⟨m, p, k, rfl, _, hc⟩
  · exact absurd rfl hj
  · have hc' := hc
    obtain ⟨n, hn, hm⟩ := hc
    obtain ⟨_, m, r, hm', hp', _⟩ := hv.links p n k j hn hm
    exact ⟨m, p, k, hm', hp', hc'⟩

theorem key_unique {k : Str} {c d : Nat} : ∀ {l : List (Str × Nat)}, (l.map (·.1)).Nodup → (k, c) ∈ l → (k, d) ∈ l → c = d := by
  intro l
  induction l with
  | nil => intro _ x; cases x
  | cons q l ih =>
    intro hnd h1 h2
    simp only [List.map_cons, List.nodup_cons] at hnd
    rcases List.mem_cons.mp h1 with e1 | m1
    · rcases List.mem_cons.mp h2 with e2 | m2
      · rw [← e1] at e2; exact (congrArg Prod.snd e2).symm
      · exact absurd (List.mem_map.mpr ⟨_, m2, by rw [← e1]⟩) hnd.1
    · rcases List.mem_cons.mp h2 with e2 | m2
      · exact absurd (List.mem_map.mpr ⟨_, m1, by rw [← e2]⟩) hnd.1
      · exact ih hnd.2 m1 m2

theorem lookup_mem {k : Str} {c : Nat} {l : List (Str × Nat)} (h : l.lookup k = some c) : (k, c) ∈ l := by
  induction l with
  | nil => simp at h
  | cons p l ih =>
    obtain ⟨k', c'⟩ := p
    rw [List.lookup_cons] at h
    split at h
    · rename_i e; simp at e h; simp [e, h]
    · exact List.mem_cons_of_mem _ (ih h)

/-- The heap after a child was added. -/
def grow (h : Heap) (p : Nat) (n : Node) (k : Str) (new : Node) : Heap :=
  (h.set p { n with children := n.children ++ [(k, h.length)] }) ++ [new]

/-- The heap after the child with a key was taken out. -/
def prune (h : Heap) (p : Nat) (n : Node) (k : Str) : Heap :=
  h.set p { n with children := n.children.filter (fun x => x.1 ≠ k) }

theorem grow_new {h : Heap} {p : Nat} {n : Node} {k : Str} {new : Node} : (grow h p n k new)[h.length]? = some new := by
  unfold grow
  rw [List.getElem?_append_right (by simp)]
  simp

theorem grow_at {h : Heap} {p : Nat} {n : Node} {k : Str} {new : Node} (hn : h[p]? = some n) :
    (grow h p n k new)[p]? = some { n with children := n.children ++ [(k, h.length)] } := by
  have hp : p < h.length := (List.getElem?_eq_some_iff.mp hn).1
  unfold grow
  rw [List.getElem?_append_left (by simpa using hp), List.getElem?_set, if_pos rfl, if_pos hp]

theorem grow_other {h : Heap} {p i : Nat} {n m : Node} {k : Str} {new : Node} (hi : i ≠ p) (hm : h[i]? = some m) :
    (grow h p n k new)[i]? = some m := by
  have hl : i < h.length := (List.getElem?_eq_some_iff.mp hm).1
  unfold grow
  rw [List.getElem?_append_left (by simpa using hl), List.getElem?_set, if_neg (Ne.symm hi), hm]

theorem grow_cases {h : Heap} {p i : Nat} {n m : Node} {k : Str} {new : Node} (hn : h[p]? = some n)
    (hm : (grow h p n k new)[i]? = some m) :
    (i = h.length ∧ m = new) ∨ (i = p ∧ m = { n with children := n.children ++ [(k, h.length)] }) ∨ (i ≠ p ∧ h[i]? = some m) := by
  by_cases hi : i = p
  · subst hi
    rw [grow_at hn] at hm
    exact .inr (.inl ⟨rfl, (Option.some.inj hm).symm⟩)
  · by_cases hl : i < h.length
    · refine .inr (.inr ⟨hi, ?_⟩)
      obtain ⟨x, hx⟩ : ∃ x, h[i]? = some x := ⟨h[i], List.getElem?_eq_getElem hl⟩
      rw [grow_other hi hx] at hm
      rw [hx, hm]
    · have : i < h.length + 1 := by
        have := (List.getElem?_eq_some_iff.mp hm).1
        simpa [grow] using this
      have e : i = h.length := by omega
      subst e
      rw [grow_new] at hm
      exact .inl ⟨rfl, (Option.some.inj hm).symm⟩

theorem grow_old {h : Heap} {p i : Nat} {n m : Node} {k : Str} {new : Node} (hn : h[p]? = some n) (hm : h[i]? = some m) :
    ∃ m' : Node, (grow h p n k new)[i]? = some m' ∧ m'.parent = m.parent ∧ m'.entry = m.entry := by
  by_cases hi : i = p
  · subst hi
    rw [hn] at hm
    cases hm
    exact ⟨_, grow_at hn, rfl, rfl⟩
  · exact ⟨m, grow_other hi hm, rfl, rfl⟩

theorem prune_at {h : Heap} {p : Nat} {n : Node} {k : Str} (hn : h[p]? = some n) :
    (prune h p n k)[p]? = some { n with children := n.children.filter (fun x => x.1 ≠ k) } := by
  have hp : p < h.length := (List.getElem?_eq_some_iff.mp hn).1
  unfold prune
  rw [List.getElem?_set, if_pos rfl, if_pos hp]

theorem prune_other {h : Heap} {p i : Nat} {n : Node} {k : Str} (hi : i ≠ p) : (prune h p n k)[i]? = h[i]? := by
  unfold prune
  rw [List.getElem?_set, if_neg (Ne.symm hi)]

theorem prune_cases {h : Heap} {p i : Nat} {n m : Node} {k : Str} (hn : h[p]? = some n) (hm : (prune h p n k)[i]? = some m) :
    ∃ m' : Node, h[i]? = some m' ∧ m'.entry = m.entry ∧ m'.parent = m.parent ∧ m.children.Sublist m'.children := by
  by_cases hi : i = p
  · subst hi
    rw [prune_at hn] at hm
    cases hm
    exact ⟨n, hn, rfl, rfl, List.filter_sublist⟩
  · rw [prune_other hi] at hm
    exact ⟨m, hm, rfl, rfl, .refl _⟩

theorem prune_old {h : Heap} {p i : Nat} {n m : Node} {k : Str} (hn : h[p]? = some n) (hm : h[i]? = some m) :
    ∃ m' : Node, (prune h p n k)[i]? = some m' ∧ m'.parent = m.parent ∧ m'.entry = m.entry := by
  by_cases hi : i = p
  · subst hi
    rw [hn] at hm
    cases hm
    exact ⟨_, prune_at hn, rfl, rfl⟩
  · exact ⟨m, by rw [prune_other hi, hm], rfl, rfl⟩

theorem grow_inv {h : Heap} {p : Nat} {n : Node} {rdn : Rdn} {as : Attrs} (hv : Inv h) (hn : h[p]? = some n)
    (hk : rdn.text ∉ n.children.map (·.1)) : Inv (grow h p n rdn.text ⟨⟨rdn :: n.entry.dn, as⟩, some p, []⟩) := by
  have link : ∀ (i : Nat) (n' : Node) k c, h[i]? = some n' → (k, c) ∈ n'.children → i < c ∧ ∃ (m : Node) (r : Rdn),
      (grow h p n rdn.text ⟨⟨rdn :: n.entry.dn, as⟩, some p, []⟩)[c]? = some m ∧ m.parent = some i ∧
      m.entry.dn = r :: n'.entry.dn ∧ k = Rdn.text r := by
    intro i n' k c hi hc
    obtain ⟨hlt, m, r, hm, hpar, hd, hk⟩ := hv.links i n' k c hi hc
    obtain ⟨m', hm', e1, e2⟩ := grow_old (k := rdn.text) (new := ⟨⟨rdn :: n.entry.dn, as⟩, some p, []⟩) hn hm
    exact ⟨hlt, m', r, hm', by rw [e1, hpar], by rw [e2, hd], hk⟩
  constructor
  · intro i m k c hm hc
    rcases grow_cases hn hm with ⟨rfl, rfl⟩ | ⟨rfl, rfl⟩ | ⟨_, hm'⟩
    · simp at hc
    · simp only [List.mem_append, List.mem_singleton, Prod.mk.injEq] at hc
      rcases hc with hc | ⟨rfl, rfl⟩
      · exact link i n k c hn hc
      · exact ⟨(List.getElem?_eq_some_iff.mp hn).1, _, rdn, grow_new, rfl, rfl, rfl⟩
    · exact link i m k c hm' hc
  · intro i m hm
    rcases grow_cases hn hm with ⟨rfl, rfl⟩ | ⟨rfl, rfl⟩ | ⟨_, hm'⟩
    · simp
    · simp only [List.map_append, List.map_cons, List.map_nil]
      rw [List.nodup_append]
      refine ⟨hv.siblings i n hn, by simp, ?_⟩
      intro a ha b hb e
      simp only [List.mem_singleton] at hb
      exact hk (by rw [← hb, ← e]; exact ha)
    · exact hv.siblings i m hm'

theorem prune_inv {h : Heap} {p : Nat} {n : Node} {k : Str} (hv : Inv h) (hn : h[p]? = some n) : Inv (prune h p n k) := by
  constructor
  · intro i m k' c hm hc
    obtain ⟨m', hm', e1, e2, hs⟩ := prune_cases hn hm
    obtain ⟨hlt, q, r, hq, hpar, hdn, hk⟩ := hv.links i m' k' c hm' (hs.subset hc)
    obtain ⟨q', hq', e3, e4⟩ := prune_old (k := k) hn hq
    exact ⟨hlt, q', r, hq', by rw [e3, hpar], by rw [e4, hdn, e1], hk⟩
  · intro i m hm
    obtain ⟨m', hm', _, _, hs⟩ := prune_cases hn hm
    exact (hs.map _).nodup (hv.siblings i m' hm')

theorem addChild_eq {U : Unicode} {h : Heap} {p : Nat} {n : Node} {rdn : Rdn} {as : List (PyStr × List PyStr)} (hn : h[p]? = some n) :
    addChild U h p rdn as = if rdn.text ∈ n.children.map (·.1) then .error .alreadyExists
      else .ok (grow h p n rdn.text ⟨⟨rdn :: n.entry.dn, buildAttrs U as⟩, some p, []⟩, h.length) := by
  simp only [addChild, hn, grow]

theorem addChild_ok {U : Unicode} {h h' : Heap} {p c : Nat} {rdn : Rdn} {as : List (PyStr × List PyStr)}
    (ha : addChild U h p rdn as = .ok (h', c)) :
    ∃ n, h[p]? = some n ∧ rdn.text ∉ n.children.map (·.1) ∧ c = h.length ∧
      h' = grow h p n rdn.text ⟨⟨rdn :: n.entry.dn, buildAttrs U as⟩, some p, []⟩ := by
  cases hn : h[p]? with
  | none => simp [addChild, hn] at ha
  | some n =>
    rw [addChild_eq hn] at ha
    split at ha
    · cases ha
    · rename_i hk; cases ha; exact ⟨n, rfl, hk, rfl, rfl⟩

theorem deleteChild_ok {h h' : Heap} {p c : Nat} {rdn : Rdn} (hd : deleteChild h p rdn = .ok (h', c)) :
    ∃ n, h[p]? = some n ∧ (rdn.text, c) ∈ n.children ∧ h' = prune h p n rdn.text := by
  unfold deleteChild at hd
  split at hd
  · cases hd
  · rename_i n hn
    split at hd
    · rename_i c' hc
      cases hd
      exact ⟨n, hn, lookup_mem hc, rfl⟩
    · cases hd

/-- A successful deletion takes the entry's RDN out of its parent. -/
theorem delete_ok {h : Heap} {i : Nat} {r : Heap × Nat} (hd : delete h i = .ok r) :
    ∃ n p rdn d, h[i]? = some n ∧ n.parent = some p ∧ n.children = [] ∧ n.entry.dn = rdn :: d ∧ deleteChild h p rdn = .ok r := by
  unfold delete at hd
  split at hd
  · cases hd
  · rename_i n hn
    split at hd
    · cases hd
    · rename_i p hp
      split at hd
      · cases hd
      · rename_i hc
        split at hd
        · cases hd
        · rename_i rdn d he
          exact ⟨n, p, rdn, d, hn, hp, by simpa using hc, he, hd⟩

/-- No call gives the root a parent. -/
def Rooted (h : Heap) (root : Nat) : Prop := ∃ n, h[root]? = some n ∧ n.parent = none

theorem callStep_inv {U : Unicode} {h : Heap} {root : Nat} (hv : Inv h) (hr : Rooted h root) (c : Call) :
    Inv (callStep U h c) ∧ Rooted (callStep U h c) root := by
  have del : ∀ {p rdn r}, Tree.deleteChild h p rdn = .ok r → Inv r.1 ∧ Rooted r.1 root := by
    intro p rdn r hd
    obtain ⟨n, hn, _, e⟩ := deleteChild_ok hd
    rw [e]
    obtain ⟨m, hm, hp⟩ := hr
    obtain ⟨m', hm', e', _⟩ := prune_old (k := rdn.text) hn hm
    exact ⟨prune_inv hv hn, m', hm', by rw [e', hp]⟩
  cases c with
  | add p rdn as =>
    simp only [callStep]
    split
    · rename_i r hr'
      obtain ⟨n, hn, hk, _, e⟩ := addChild_ok hr'
      rw [e]
      obtain ⟨m, hm, hp⟩ := hr
      obtain ⟨m', hm', e', _⟩ := grow_old (k := rdn.text) (new := ⟨⟨rdn :: n.entry.dn, buildAttrs U as⟩, some p, []⟩) hn hm
      exact ⟨grow_inv hv hn hk, m', hm', by rw [e', hp]⟩
    · exact ⟨hv, hr⟩
  | delete i =>
    simp only [callStep]
    split
    · rename_i r hr'
      obtain ⟨_, p, rdn, _, _, _, _, _, hd⟩ := delete_ok hr'
      exact del hd
    · exact ⟨hv, hr⟩
  | deleteChild p rdn =>
    simp only [callStep]
    split
    · rename_i r hr'; exact del hr'
    · exact ⟨hv, hr⟩

theorem callRun_inv {U : Unicode} {h : Heap} {root : Nat} (hv : Inv h) (hr : Rooted h root) (cs : List Call) :
    Inv (callRun U h cs) ∧ Rooted (callRun U h cs) root := by
  induction cs generalizing h with
  | nil => exact ⟨hv, hr⟩
  | cons c cs ih =>
    obtain ⟨h1, h2⟩ := callStep_inv (U := U) hv hr c
    exact ih h1 h2

/-- A directory that consists of its root. -/
def single (e : Entry) : Heap := [⟨e, none, []⟩]

theorem single_inv (e : Entry) : Inv (single e) ∧ Rooted (single e) 0 := by
  have get : ∀ (i : Nat) (n : Node), (single e)[i]? = some n → n.children = [] := by
    intro i n hi
    cases i with
    | zero => cases hi; rfl
    | succ i => simp [single] at hi
  refine ⟨⟨fun i n k c hi hc => ?_, fun i n hi => ?_⟩, _, rfl, rfl⟩
  · rw [get i n hi] at hc; cases hc
  · rw [get i n hi]; exact .nil

end Verif.Tree
