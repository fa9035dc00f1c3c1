import Verif.Props.C24
import Verif.Lemmas.Rename
/-
C25  Renaming moves the entry.

The full claim fails in six ways, shown by the theorems at the end: a moved entry can no longer be deleted, an entry
renamed in place keeps its old name reserved, descendants are lost, an entry with the new name is overwritten, an entry
moved below itself is lost, and a move that raises half-way leaves the entry half moved.  What holds is proved for the first
move of a leaf to a free name.
-/
namespace Verif.C25
open Verif.Dn Verif.Tree Verif.Spec

variable {U : Unicode} {h h' : Heap} {i : Nat} {newDN : Dn}

/-- What a successful move of a leaf comes to. -/
structure Moved (U : Unicode) (h h' : Heap) (i : Nat) (newDN : Dn) : Prop where
  length : h'.length = h.length
  linked : Linked U h'
  distinct : Distinct U h'
  below : ∀ j, Below h' 0 j ↔ Below h 0 j
  other : ∀ j, j ≠ i → dnOf h' j = dnOf h j
  self : dnOf h' i = newDN

theorem Moved.lookup (hm : Moved U h h' i newDN) (hv : Inv h) (hd : Distinct U h) (h0 : 0 < h.length) (hb : Below h 0 i)
    (hfree : ∀ j, Below h 0 j → foldDn U (dnOf h j) ≠ foldDn U newDN) :
    lookup U h' 0 newDN = .ok i ∧ (∀ q, foldDn U q = foldDn U (dnOf h i) → lookup U h' 0 q = .error .noSuchObject) ∧
      ∀ q, foldDn U q ≠ foldDn U (dnOf h i) → foldDn U q ≠ foldDn U newDN → lookup U h' 0 q = lookup U h 0 q := by
  have h0' : 0 < h'.length := by rw [hm.length]; exact h0
  refine ⟨(hm.linked.lookup_iff hm.distinct h0' _ _).mpr ⟨(hm.below i).mpr hb, by rw [hm.self]⟩, ?_, ?_⟩
  · intro q hq
    refine hm.linked.lookup_error hm.distinct h0' fun j hj e => ?_
    have hj' := (hm.below j).mp hj
    by_cases hji : j = i
    · subst hji
      rw [hm.self, hq] at e
      exact hfree j hb e.symm
    · rw [hm.other j hji, hq] at e
      exact hji (below_unique hv hd h0 hj' hb e)
  · intro q h1 h2
    cases hl : Tree.lookup U h 0 q with
    | ok j =>
      obtain ⟨hbj, e⟩ := (lookup_iff hv hd h0 q j).mp hl
      refine (hm.linked.lookup_iff hm.distinct h0' _ _).mpr ⟨(hm.below j).mpr hbj, ?_⟩
      rw [hm.other j (fun e' => h1 (by rw [← e, e'])), e]
    | error x =>
      have hx : x = .noSuchObject := (lookupLoop_iff (Inv.linked hv) hd q (h.length + 1) 0 h0
        (fun _ _ hl => by have := (Inv.linked (U := U) hv).path_length hl; omega)).2 x hl
      subst hx
      refine hm.linked.lookup_error hm.distinct h0' fun j hj e => ?_
      have hj' := (hm.below j).mp hj
      by_cases hji : j = i
      · subst hji
        rw [hm.self] at e
        exact h2 e.symm
      · rw [hm.other j hji] at e
        rw [(lookup_iff hv hd h0 q j).mpr ⟨hj', e⟩] at hl
        cases hl

theorem climb_root (hv : Inv h) (hr : Rooted h 0) : ∀ (l : List Nat) (j fuel : Nat), Path h 0 l j → l.length < fuel → climb h fuel j = .ok 0 := by
  intro l
  generalize hn : l.length = n
  induction n generalizing l with
  | zero =>
    intro j fuel hp hf
    rw [List.length_eq_zero_iff.mp hn] at hp
    cases hp
    obtain ⟨r, hr1, hr2⟩ := hr
    cases fuel with
    | zero => omega
    | succ f => simp [climb, hr1, hr2]
  | succ n ih =>
    intro j fuel hp hf
    rcases path_snoc hp with ⟨rfl, _⟩ | ⟨m, p, k, rfl, hm, hc⟩
    · simp at hn
    · obtain ⟨pn, hpn, hcm⟩ := hc
      obtain ⟨_, jn, _, hj, hpar, _⟩ := hv.links p pn k j hpn hcm
      cases fuel with
      | zero => omega
      | succ f =>
        simp only [climb, hj, hpar]
        exact ih m (by simpa using hn) p f hm (by omega)

theorem setKey_fresh {k : Str} {v : Nat} {l : List (Str × Nat)} (hk : k ∉ l.map (·.1)) : setKey k v l = l ++ [(k, v)] := by
  induction l with
  | nil => rfl
  | cons p l ih =>
    obtain ⟨k', v'⟩ := p
    simp only [List.map_cons, List.mem_cons, not_or] at hk
    simp only [setKey, if_neg (Ne.symm hk.1), ih hk.2, List.cons_append]

/-- The second half of a successful move sets the DN, and of the tree nothing else. -/
theorem move2_none {n : Node} (hn : h[i]? = some n) (hmv : move2 U h i none newDN = (h', none)) :
    ∃ e : Entry, e.dn = newDN ∧ h' = h.set i { n with entry := e } := by
  simp only [move2, hn] at hmv
  split at hmv
  · simp at hmv
  · simp at hmv
  · split at hmv
    · simp at hmv
    · split at hmv
      · simp at hmv
      · rename_i e _
        exact ⟨{ e with dn := _ }, rfl, (congrArg Prod.fst hmv).symm⟩

theorem move2_some {n : Node} {np : Nat} (hn : h[i]? = some n) (hni : i ≠ np) (hmv : move2 U h i (some np) newDN = (h', none)) :
    ∃ (r old : Rdn) (d d' : Dn) (q pn : Node) (p : Nat) (e : Entry), newDN = r :: d ∧ n.entry.dn = old :: d' ∧ h[np]? = some q ∧ n.parent = some p ∧
      (h.set np { q with children := setKey r.text i q.children })[p]? = some pn ∧ e.dn = newDN ∧
      (i ≠ p → h' = ((h.set np { q with children := setKey r.text i q.children }).set p
        { pn with children := pn.children.filter (fun x => x.1 ≠ old.text) }).set i { n with entry := e }) := by
  simp only [move2, hn] at hmv
  cases newDN with
  | nil => simp at hmv
  | cons r d =>
    cases hq : h[np]? with
    | none => simp [hq] at hmv
    | some q =>
      simp only [hq] at hmv
      cases hp : n.parent with
      | none => simp [hp] at hmv
      | some p =>
        simp only [hp] at hmv
        cases ho : n.entry.dn with
        | nil => simp [ho] at hmv
        | cons old d' =>
          simp only [ho] at hmv
          cases hpn : (h.set np { q with children := setKey r.text i q.children })[p]? with
          | none => simp [hpn] at hmv
          | some pn =>
            simp only [hpn] at hmv
            by_cases hk : old.text ∈ pn.children.map (·.1)
            · simp only [if_pos hk] at hmv
              by_cases hip : i = p
              · cases hx : rdnLoop U (fun v s => AttributeSet.add s v) r n.entry with
                | mk e x =>
                  exact ⟨r, old, d, d', q, pn, p, { e with dn := r :: d }, rfl, rfl, rfl, rfl, hpn, rfl, fun c => absurd hip c⟩
              · have hi1 : ((h.set np { q with children := setKey r.text i q.children }).set p
                    { pn with children := pn.children.filter (fun x => x.1 ≠ old.text) })[i]? = some n := by
                  rw [List.getElem?_set, if_neg (Ne.symm hip), List.getElem?_set, if_neg (Ne.symm hni), hn]
                simp only [hi1, ho] at hmv
                split at hmv
                · simp at hmv
                · split at hmv
                  · simp at hmv
                  · rename_i e _
                    exact ⟨r, old, d, d', q, pn, p, { e with dn := r :: d }, rfl, rfl, rfl, rfl, hpn, rfl,
                      fun _ => by rw [← hp]; exact (congrArg Prod.fst hmv).symm⟩
            · simp [if_neg hk] at hmv

theorem moved_inPlace (hv : Inv h) (hd : Distinct U h) {n : Node} (hn : h[i]? = some n) (hb : Below h 0 i) (hi0 : i ≠ 0)
    (hleaf : n.children = []) (hup : foldDn U (Dn.up newDN) = foldDn U (Dn.up n.entry.dn)) (hne : newDN ≠ [])
    (hfree : ∀ j, Below h 0 j → foldDn U (dnOf h j) ≠ foldDn U newDN) {e : Entry} (he : e.dn = newDN) :
    Moved U h (h.set i { n with entry := e }) i newDN := by
  have hil : i < h.length := (List.getElem?_eq_some_iff.mp hn).1
  have hself : (h.set i { n with entry := e })[i]? = some { n with entry := e } := by
    rw [List.getElem?_set, if_pos rfl, if_pos hil]
  have hother : ∀ j, j ≠ i → (h.set i { n with entry := e })[j]? = h[j]? := by
    intro j hj; rw [List.getElem?_set, if_neg (Ne.symm hj)]
  have hch : ∀ a k c, ChildAs (h.set i { n with entry := e }) a k c ↔ ChildAs h a k c := by
    intro a k c
    by_cases ha : a = i
    · subst ha
      simp only [ChildAs, hself, hn, Option.some.injEq, exists_eq_left']
    · simp only [ChildAs, hother a ha]
  have hpath : ∀ a l c, Path (h.set i { n with entry := e }) a l c ↔ Path h a l c := by
    intro a l c
    constructor
    · intro hp
      induction hp with
      | here => exact .here _
      | down hc _ ih => exact .down ((hch _ _ _).mp hc) ih
    · intro hp
      induction hp with
      | here => exact .here _
      | down hc _ ih => exact .down ((hch _ _ _).mpr hc) ih
  have hdo : ∀ j, j ≠ i → dnOf (h.set i { n with entry := e }) j = dnOf h j := by
    intro j hj; simp only [dnOf, hother j hj]
  have hds : dnOf (h.set i { n with entry := e }) i = newDN := by rw [dnOf_eq hself]; exact he
  have hnotparent : ∀ a k c, ChildAs h a k c → a ≠ i := by
    rintro a k c ⟨m, hm, hc⟩ rfl
    rw [hn] at hm; cases hm
    rw [hleaf] at hc; cases hc
  have hparent : ∀ a k, ChildAs h a k i → Below h 0 a ∧ foldDn U (dnOf h a) = foldDn U (Dn.up newDN) := by
    intro a k hc
    obtain ⟨l, hl⟩ := hb
    rcases path_snoc hl with ⟨rfl, e0⟩ | ⟨m, p, k', rfl, hm, hc'⟩
    · exact absurd e0.symm hi0
    · have := hv.parent hc hc'
      subst this
      obtain ⟨r, e1, _⟩ := hc.dn hv
      rw [dnOf_eq hn] at e1
      exact ⟨⟨m, hm⟩, by rw [hup, e1]; rfl⟩
  refine ⟨by simp, ?_, ?_, fun j => ?_, hdo, hds⟩
  · intro a k c hc
    replace hc := (hch a k c).mp hc
    refine ⟨by simpa using hc.lt_length hv, ?_⟩
    rw [hdo a (hnotparent a k c hc)]
    by_cases hci : c = i
    · subst hci
      rw [hds, (hparent a k hc).2]
      cases hnd : newDN with
      | nil => exact absurd hnd hne
      | cons r d => exact ⟨foldRdn U r, rfl⟩
    · rw [hdo c hci]
      obtain ⟨r, e1, _⟩ := hc.dn hv
      exact ⟨foldRdn U r, by rw [e1]; rfl⟩
  · have aux : ∀ a k k' c', ChildAs h a k i → ChildAs h a k' c' → c' ≠ i → foldDn U newDN ≠ foldDn U (dnOf h c') := by
      intro a k k' c' hc hc' _ e1
      obtain ⟨⟨m, hm⟩, _⟩ := hparent a k hc
      exact hfree c' ⟨_, path_append hm (.down hc' (.here c'))⟩ e1.symm
    intro a k k' c c' hc hc' e1
    replace hc := (hch _ _ _).mp hc
    replace hc' := (hch _ _ _).mp hc'
    by_cases h1 : c = i <;> by_cases h2 : c' = i
    · rw [h1, h2]
    · subst h1
      rw [hds, hdo c' h2] at e1
      exact absurd e1 (aux a k k' c' hc hc' h2)
    · subst h2
      rw [hds, hdo c h1] at e1
      exact absurd e1.symm (aux a k' k c hc' hc h1)
    · rw [hdo c h1, hdo c' h2] at e1
      exact hd a k k' c c' hc hc' e1
  · exact exists_congr fun l => hpath 0 l j

theorem moved_across (hv : Inv h) (hd : Distinct U h) {n q pn : Node} {p np : Nat} {r old : Rdn} {d d' : Dn}
    (hn : h[i]? = some n) (hb : Below h 0 i) (hi0 : i ≠ 0) (hleaf : n.children = []) (hnd : newDN = r :: d) (hod : n.entry.dn = old :: d')
    (hq : h[np]? = some q) (hnpb : Below h 0 np) (hnpd : foldDn U (dnOf h np) = foldDn U d) (hni : i ≠ np)
    (hpar : n.parent = some p) (hnpp : np ≠ p) (hpn : h[p]? = some pn) (hkey : r.text ∉ q.children.map (·.1))
    (hfree : ∀ j, Below h 0 j → foldDn U (dnOf h j) ≠ foldDn U newDN) {e : Entry} (he : e.dn = newDN) :
    Moved U h (((h.set np { q with children := setKey r.text i q.children }).set p
        { pn with children := pn.children.filter (fun x => x.1 ≠ old.text) }).set i { n with entry := e }) i newDN := by
  have hil : i < h.length := (List.getElem?_eq_some_iff.mp hn).1
  have hpl : p < h.length := (List.getElem?_eq_some_iff.mp hpn).1
  have hnpl : np < h.length := (List.getElem?_eq_some_iff.mp hq).1
  -- the old parent
  obtain ⟨m0, p0, k0, hm0, hc0⟩ : ∃ m p k, Path h 0 m p ∧ ChildAs h p k i := by
    obtain ⟨l, hl⟩ := hb
    rcases path_snoc hl with ⟨rfl, e0⟩ | ⟨m, p, k, rfl, hm, hc⟩
    · exact absurd e0.symm hi0
    · exact ⟨m, p, k, hm, hc⟩
  have hpp : p0 = p ∧ k0 = old.text := by
    obtain ⟨x, hx, hxm⟩ := hc0
    obtain ⟨_, m', r', hm', hp', hd', hk'⟩ := hv.links p0 x k0 i hx hxm
    rw [hn] at hm'; cases hm'
    rw [hpar] at hp'
    rw [hod] at hd'
    exact ⟨(Option.some.inj hp').symm, by rw [hk', (List.cons.inj hd').1]⟩
  obtain ⟨rfl, rfl⟩ := hpp
  have hpi : p0 ≠ i := by have := hv.lt hc0; omega
  generalize hH : (((h.set np { q with children := setKey r.text i q.children }).set p0
        { pn with children := pn.children.filter (fun x => x.1 ≠ old.text) }).set i { n with entry := e }) = H
  have g1 : H[i]? = some { n with entry := e } := by
    rw [← hH, List.getElem?_set, if_pos rfl, if_pos (by simpa using hil)]
  have g2 : H[p0]? = some { pn with children := pn.children.filter (fun x => x.1 ≠ old.text) } := by
    rw [← hH, List.getElem?_set, if_neg (Ne.symm hpi), List.getElem?_set, if_pos rfl, if_pos (by simpa using hpl)]
  have g3 : H[np]? = some { q with children := q.children ++ [(r.text, i)] } := by
    rw [← hH, List.getElem?_set, if_neg hni, List.getElem?_set, if_neg (Ne.symm hnpp), List.getElem?_set, if_pos rfl, if_pos hnpl,
      setKey_fresh hkey]
  have g4 : ∀ j, j ≠ i → j ≠ p0 → j ≠ np → H[j]? = h[j]? := by
    intro j h1 h2 h3
    rw [← hH, List.getElem?_set, if_neg (Ne.symm h1), List.getElem?_set, if_neg (Ne.symm h2), List.getElem?_set, if_neg (Ne.symm h3)]
  have hlen : H.length = h.length := by rw [← hH]; simp
  clear hH
  have hch : ∀ a k c, ChildAs H a k c ↔ (ChildAs h a k c ∧ c ≠ i) ∨ (a = np ∧ k = r.text ∧ c = i) := by
    have hold : ∀ a k, ChildAs h a k i → a = p0 ∧ k = old.text := by
      intro a k hc
      have e1 := hv.parent hc hc0
      subst e1
      obtain ⟨r1, e1, e2⟩ := hc.dn hv
      obtain ⟨r2, e3, e4⟩ := hc0.dn hv
      rw [e1] at e3
      exact ⟨rfl, by rw [e2, e4, (List.cons.inj e3).1]⟩
    intro a k c
    by_cases h1 : a = i
    · subst h1
      constructor
      · rintro ⟨x, hx, hm⟩
        rw [g1] at hx; cases hx
        simp only at hm
        rw [hleaf] at hm; cases hm
      · rintro (⟨⟨x, hx, hm⟩, _⟩ | ⟨h2, _⟩)
        · rw [hn] at hx; cases hx
          rw [hleaf] at hm; cases hm
        · exact absurd h2 hni
    · by_cases h2 : a = p0
      · subst h2
        constructor
        · rintro ⟨x, hx, hm⟩
          rw [g2] at hx; cases hx
          simp only [List.mem_filter, decide_eq_true_eq] at hm
          refine .inl ⟨⟨pn, hpn, hm.1⟩, ?_⟩
          rintro rfl
          exact hm.2 (hold a k ⟨pn, hpn, hm.1⟩).2
        · rintro (⟨⟨x, hx, hm⟩, hci⟩ | ⟨h3, _⟩)
          · rw [hpn] at hx; cases hx
            refine ⟨_, g2, ?_⟩
            simp only [List.mem_filter, decide_eq_true_eq]
            refine ⟨hm, ?_⟩
            rintro rfl
            obtain ⟨y, hy, hym⟩ := hc0
            rw [hpn] at hy; cases hy
            exact hci (key_unique (hv.siblings a pn hpn) hm hym)
          · exact absurd h3.symm hnpp
      · by_cases h3 : a = np
        · subst h3
          constructor
          · rintro ⟨x, hx, hm⟩
            rw [g3] at hx; cases hx
            simp only [List.mem_append, List.mem_singleton, Prod.mk.injEq] at hm
            rcases hm with hm | ⟨rfl, rfl⟩
            · refine .inl ⟨⟨q, hq, hm⟩, ?_⟩
              rintro rfl
              exact h2 (hold a k ⟨q, hq, hm⟩).1
            · exact .inr ⟨rfl, rfl, rfl⟩
          · rintro (⟨⟨x, hx, hm⟩, _⟩ | ⟨_, rfl, rfl⟩)
            · rw [hq] at hx; cases hx
              exact ⟨_, g3, List.mem_append_left _ hm⟩
            · exact ⟨_, g3, by simp⟩
        · simp only [ChildAs, g4 a h1 h2 h3, h3, false_and, or_false]
          constructor
          · rintro ⟨x, hx, hm⟩
            refine ⟨⟨x, hx, hm⟩, ?_⟩
            rintro rfl
            exact h2 (hold a k ⟨x, hx, hm⟩).1
          · exact fun x => x.1
  have hdo : ∀ j, j ≠ i → dnOf H j = dnOf h j := by
    intro j hj
    by_cases h2 : j = p0
    · subst h2; rw [dnOf_eq g2, dnOf_eq hpn]
    · by_cases h3 : j = np
      · subst h3; rw [dnOf_eq g3, dnOf_eq hq]
      · simp only [dnOf, g4 j hj h2 h3]
  have hds : dnOf H i = newDN := by rw [dnOf_eq g1]; exact he
  have hleaf' : ∀ k c, ¬ ChildAs h i k c := by
    rintro k c ⟨x, hx, hm⟩
    rw [hn] at hx; cases hx
    rw [hleaf] at hm; cases hm
  -- ways to entries other than the moved one do not pass it
  have keep : ∀ a l c, Path h a l c → c ≠ i → Path H a l c := by
    intro a l c hp
    induction hp with
    | here a => intro _; exact .here a
    | @down a c j k l hc hp ih =>
      intro hj
      refine .down ((hch _ _ _).mpr (.inl ⟨hc, ?_⟩)) (ih hj)
      rintro rfl
      cases hp with
      | here => exact hj rfl
      | down hc' _ => exact hleaf' _ _ hc'
  have back : ∀ a l c, Path H a l c → Below h 0 a → Below h 0 c := by
    intro a l c hp
    induction hp with
    | here a => exact id
    | @down a c j k l hc _ ih =>
      intro hba
      apply ih
      rcases (hch _ _ _).mp hc with ⟨hc, _⟩ | ⟨_, _, rfl⟩
      · obtain ⟨l', hl'⟩ := hba
        exact ⟨_, path_append hl' (.down hc (.here c))⟩
      · exact hb
  refine ⟨hlen, ?_, ?_, fun j => ?_, hdo, hds⟩
  · intro a k c hc
    rcases (hch a k c).mp hc with ⟨hc', hci⟩ | ⟨rfl, rfl, rfl⟩
    · rw [hlen, hdo c hci, hdo a (fun e1 => hleaf' k c (e1 ▸ hc'))]
      obtain ⟨r1, e1, _⟩ := hc'.dn hv
      exact ⟨hc'.lt_length hv, foldRdn U r1, by rw [e1]; rfl⟩
    · rw [hlen, hds, hdo a (Ne.symm hni), hnpd, hnd]
      exact ⟨hil, foldRdn U r, rfl⟩
  · have aux : ∀ k' c', ChildAs h np k' c' → foldDn U newDN ≠ foldDn U (dnOf h c') := by
      intro k' c' hc' e1
      obtain ⟨m, hm⟩ := hnpb
      exact hfree c' ⟨_, path_append hm (.down hc' (.here c'))⟩ e1.symm
    intro a k k' c c' hc hc' e1
    rcases (hch a k c).mp hc with ⟨h1, hci⟩ | ⟨rfl, rfl, rfl⟩
    · rcases (hch a k' c').mp hc' with ⟨h2, hci'⟩ | ⟨rfl, rfl, rfl⟩
      · rw [hdo c hci, hdo c' hci'] at e1
        exact hd a k k' c c' h1 h2 e1
      · rw [hds, hdo c hci] at e1
        exact absurd e1.symm (aux k c h1)
    · rcases (hch a k' c').mp hc' with ⟨h2, hci'⟩ | ⟨_, _, h2⟩
      · rw [hds, hdo c' hci'] at e1
        exact absurd e1 (aux k' c' h2)
      · exact h2.symm
  · constructor
    · rintro ⟨l, hl⟩; exact back 0 l j hl (.refl 0)
    · rintro ⟨l, hl⟩
      by_cases hj : j = i
      · subst hj
        obtain ⟨m, hm⟩ := hnpb
        exact ⟨_, path_append (keep 0 m np hm (Ne.symm hni)) (.down ((hch _ _ _).mpr (.inr ⟨rfl, rfl, rfl⟩)) (.here j))⟩
      · exact ⟨l, keep 0 l j hl hj⟩

/-- The tree after requests that spell RDNs uniformly, extended by an RDN that is spelled like them. -/
structure Setting (U : Unicode) (dn : Dn) (as : List (PyStr × List PyStr)) (rs : List Request) (r : Rdn) : Prop where
  uniform : C24.Uniform U rs
  parsed : ∃ s, Rdn.parse U s = .ok r
  alike : ∀ r' ∈ C24.rdns rs, Rdn.eq U r r' = true → r = r'

/-- The first successful move of a leaf to a free name, in a tree that holds the entries of a map. -/
theorem move_leaf_sim {R : Rdn → Prop} {root : Name} {D : Directory} {n : Node} {r : Rdn} {d : Dn} (hs : Sim U R root h D) (hR : Spelled U R) (hr : R r)
    (hn : h[i]? = some n) (hb : Below h 0 i) (hi0 : i ≠ 0) (hleaf : n.children = [])
    (hfree : ∀ j, lookup U h 0 (r :: d) ≠ .ok j) (hself : Dn.eq U d n.entry.dn = false) (hmv : move U h i (r :: d) = (h', none)) :
    lookup U h' 0 (r :: d) = .ok i ∧ (∀ q, foldDn U q = foldDn U n.entry.dn → lookup U h' 0 q = .error .noSuchObject) ∧
      ∀ q, Dn.eq U q n.entry.dn = false → Dn.eq U q (r :: d) = false → lookup U h' 0 q = lookup U h 0 q := by
  have hv := hs.inv
  have hd := hs.named.distinct hR hv
  have hfree' : ∀ j, Below h 0 j → foldDn U (dnOf h j) ≠ foldDn U (r :: d) := by
    intro j hj e
    exact hfree j ((lookup_iff hv hd hs.pos _ _).mpr ⟨hj, e⟩)
  have hni := dnOf_eq hn
  have hm : Moved U h h' i (r :: d) := by
    unfold move at hmv
    rw [hni] at hmv
    by_cases hup : Dn.eq U (Dn.up (r :: d)) (Dn.up n.entry.dn) = true
    · rw [if_neg (by simp [hup])] at hmv
      obtain ⟨e, he, rfl⟩ := move2_none hn hmv
      exact moved_inPlace hv hd hn hb hi0 hleaf ((Dn.eq_iff U _ _).mp hup) (by simp) hfree' he
    · rw [if_pos (by simpa using hup)] at hmv
      obtain ⟨l, hl⟩ := hb
      rw [climb_root hv hs.rooted l i _ hl (by have := (Inv.linked (U := U) hv).path_length hl; omega)] at hmv
      simp only at hmv
      cases hlk : lookup U h 0 (Dn.up (r :: d)) with
      | error x => simp [hlk] at hmv
      | ok np =>
        simp only [hlk] at hmv
        obtain ⟨hnpb, hnpd⟩ := (lookup_iff hv hd hs.pos _ _).mp hlk
        have hne : i ≠ np := by
          rintro rfl
          rw [hni] at hnpd
          have : Dn.eq U d n.entry.dn = true := (Dn.eq_iff U _ _).mpr hnpd.symm
          rw [this] at hself; cases hself
        obtain ⟨r1, old, d1, d', q, pn, p, e, e1, hod, hq, hpar, hpn, he, hh⟩ := move2_some hn hne hmv
        cases e1
        obtain ⟨m, p', k, hm', hc⟩ : ∃ m p k, Path h 0 m p ∧ ChildAs h p k i := by
          rcases path_snoc hl with ⟨rfl, e0⟩ | ⟨m, p, k, rfl, hm, hc⟩
          · exact absurd e0.symm hi0
          · exact ⟨m, p, k, hm, hc⟩
        have hpp : p' = p := by
          obtain ⟨x, hx, hxm⟩ := hc
          obtain ⟨_, m', r', hm', hp', hd', hk'⟩ := hv.links p' x k i hx hxm
          rw [hn] at hm'; cases hm'
          rw [hpar] at hp'
          exact (Option.some.inj hp').symm
        subst hpp
        have hpi : i ≠ p' := by have := hv.lt hc; omega
        have hnpp : np ≠ p' := by
          rintro rfl
          obtain ⟨r2, e2, _⟩ := hc.dn hv
          rw [hni] at e2
          apply hup
          rw [Dn.eq_iff, ← hnpd, e2]
          rfl
        rw [List.getElem?_set, if_neg hnpp] at hpn
        have hkey : r.text ∉ q.children.map (·.1) := by
          rw [hs.key_mem hR hq hnpb hr]
          intro hh'
          obtain ⟨j, hj, e2⟩ := hs.has.mp hh'
          apply hfree' j hj
          rw [e2, ← dnOf_eq hq, hnpd]
          rfl
        rw [hh hpi]
        exact moved_across hv hd hn ⟨l, hl⟩ hi0 hleaf rfl hod hq hnpb hnpd hne hpar hnpp hpn hkey hfree' he
  obtain ⟨c1, c2, c3⟩ := hm.lookup hv hd hs.pos hb hfree'
  rw [hni] at c2 c3
  refine ⟨c1, c2, fun q h1 h2 => c3 q ?_ ?_⟩
  · intro e; rw [(Dn.eq_iff U _ _).mpr e] at h1; cases h1
  · intro e; rw [(Dn.eq_iff U _ _).mpr e] at h2; cases h2

/-- The first successful move of a leaf to a free name: the new DN finds the entry, the old DN finds nothing, and every
other DN finds what it found before. -/
theorem move_leaf_partial (U : Unicode) (dn : Dn) (as : List (PyStr × List PyStr)) (rs : List Request) (r : Rdn) (d : Dn)
    (hset : Setting U dn as rs r) (h' : Heap) (i : Nat) (n : Node)
    (hn : (requests U (single ⟨dn, buildAttrs U as⟩) rs).1[i]? = some n)
    (hb : Below (requests U (single ⟨dn, buildAttrs U as⟩) rs).1 0 i) (hi0 : i ≠ 0) (hleaf : n.children = [])
    (hfree : ∀ j, lookup U (requests U (single ⟨dn, buildAttrs U as⟩) rs).1 0 (r :: d) ≠ .ok j)
    (hself : Dn.eq U d n.entry.dn = false)
    (hmv : move U (requests U (single ⟨dn, buildAttrs U as⟩) rs).1 i (r :: d) = (h', none)) :
    lookup U h' 0 (r :: d) = .ok i ∧ lookup U h' 0 n.entry.dn = .error .noSuchObject ∧
      ∀ q, Dn.eq U q n.entry.dn = false → Dn.eq U q (r :: d) = false →
        lookup U h' 0 q = lookup U (requests U (single ⟨dn, buildAttrs U as⟩) rs).1 0 q := by
  have hR : Spelled U (fun x => x = r ∨ x ∈ C24.rdns rs) := by
    have hR0 := hset.uniform.spelled
    refine ⟨fun x hx => ?_, fun x y hx hy e => ?_⟩
    · rcases hx with rfl | hx
      · obtain ⟨s, hs⟩ := hset.parsed
        intro a ha
        obtain ⟨t, _, ht⟩ := mapPy_mem hs a ha
        exact Ava.read_plain ht
      · exact hR0.plain x hx
    · rcases hx with e1 | hx <;> rcases hy with e2 | hy
      · rw [e1, e2]
      · subst e1; exact hset.alike y hy ((Rdn.eq_iff U _ _).mpr e)
      · subst e2; exact (hset.alike x hx ((Rdn.eq_iff U _ _).mpr e.symm)).symm
      · exact hR0.alike x y hx hy e
  have h0 : Sim U (fun x => x = r ∨ x ∈ C24.rdns rs) (foldDn U dn) (single ⟨dn, buildAttrs U as⟩) [(foldDn U dn, as)] := C24.single_sim U dn as _
  obtain ⟨_, hs⟩ := run_sim hR rs _ _ h0 (fun x hx => by
    have := C24.uses_rdns rs x hx
    cases x <;> simp_all [Uses])
  obtain ⟨c1, c2, c3⟩ := move_leaf_sim hs hR (.inl rfl) hn hb hi0 hleaf hfree hself hmv
  exact ⟨c1, c2 _ rfl, c3⟩

/-! Where the claim fails. -/

/-- A tree built by requests. -/
def built (rs : List Request) : Heap := (requests asciiTables (single ⟨C24.top, []⟩) rs).1

def a : Rdn := [⟨['c'], ['a']⟩]
def b : Rdn := [⟨['c'], ['b']⟩]
def ou : Rdn := [⟨['u'], ['v']⟩]
def attrs (v : Char) : List (PyStr × List PyStr) := [(.text ['c'], [.text [v]])]

/-- An entry moved to another parent is found there, but deleting it is refused: its parent is still the old one. -/
theorem moved_not_deletable : ∃ (rs : List Request) (h' : Heap) (i : Nat) (newDN : Dn),
    move asciiTables (built rs) i newDN = (h', none) ∧ lookup asciiTables h' 0 newDN = .ok i ∧ delete h' i = .error .noSuchObject :=
  ⟨[.add C24.top a (attrs 'a'), .add C24.top ou []],
    (move asciiTables (built [.add C24.top a (attrs 'a'), .add C24.top ou []]) 1 (a :: ou :: C24.top)).1,
    1, a :: ou :: C24.top, by decide +kernel, by decide +kernel, by decide +kernel⟩

/-- Moving it again, to a third place, raises half-way: it is then listed twice. -/
theorem moved_not_movable : ∃ (rs : List Request) (h' : Heap) (i : Nat) (newDN : Dn) (p q : Nat) (k k' : Str),
    move asciiTables (built rs) i newDN = (h', none) ∧
    ∃ h3, move asciiTables h' i (b :: C24.top) = (h3, some .keyError) ∧ p ≠ q ∧ ChildAs h3 p k i ∧ ChildAs h3 q k' i := by
  refine ⟨[.add C24.top a (attrs 'a'), .add C24.top ou []],
    (move asciiTables (built [.add C24.top a (attrs 'a'), .add C24.top ou []]) 1 (a :: ou :: C24.top)).1,
    1, a :: ou :: C24.top, 0, 2, b.text, a.text, by decide +kernel,
    (move asciiTables (move asciiTables (built [.add C24.top a (attrs 'a'), .add C24.top ou []]) 1 (a :: ou :: C24.top)).1 1 (b :: C24.top)).1,
    by decide +kernel, by decide, childAs_of (by decide +kernel), childAs_of (by decide +kernel)⟩

/-- An entry renamed in place cannot be deleted either, and its old name stays taken although nothing is found there. -/
theorem renamed_in_place : ∃ (rs : List Request) (h' : Heap) (i : Nat) (old new : Rdn),
    move asciiTables (built rs) i (new :: C24.top) = (h', none) ∧ lookup asciiTables h' 0 (new :: C24.top) = .ok i ∧
    delete h' i = .error .noSuchObject ∧ lookup asciiTables h' 0 (old :: C24.top) = .error .noSuchObject ∧
    addChild asciiTables h' 0 old [] = .error .alreadyExists :=
  ⟨[.add C24.top a (attrs 'a')], (move asciiTables (built [.add C24.top a (attrs 'a')]) 1 (b :: C24.top)).1, 1, a, b,
    by decide +kernel, by decide +kernel, by decide +kernel, by decide +kernel, by decide +kernel⟩

/-- The entries below a renamed entry are found neither under the old DN nor under the new one. -/
theorem descendants_lost : ∃ (rs : List Request) (h' : Heap) (i j : Nat) (old new r : Rdn),
    lookup asciiTables (built rs) 0 (r :: old :: C24.top) = .ok j ∧ move asciiTables (built rs) i (new :: C24.top) = (h', none) ∧
    lookup asciiTables h' 0 (r :: old :: C24.top) = .error .noSuchObject ∧ lookup asciiTables h' 0 (r :: new :: C24.top) = .error .noSuchObject :=
  ⟨[.add C24.top a (attrs 'a'), .add (a :: C24.top) ou []],
    (move asciiTables (built [.add C24.top a (attrs 'a'), .add (a :: C24.top) ou []]) 1 (b :: C24.top)).1, 1, 2, a, b, ou,
    by decide +kernel, by decide +kernel, by decide +kernel, by decide +kernel⟩

/-- Moving an entry to a name that is taken succeeds and drops the entry that was there. -/
theorem existing_overwritten : ∃ (rs : List Request) (h' : Heap) (i j : Nat) (newDN : Dn), i ≠ j ∧
    lookup asciiTables (built rs) 0 newDN = .ok j ∧ move asciiTables (built rs) i newDN = (h', none) ∧
    lookup asciiTables h' 0 newDN = .ok i :=
  ⟨[.add C24.top a (attrs 'a'), .add C24.top ou [], .add (ou :: C24.top) a []],
    (move asciiTables (built [.add C24.top a (attrs 'a'), .add C24.top ou [], .add (ou :: C24.top) a []]) 1 (a :: ou :: C24.top)).1,
    1, 3, a :: ou :: C24.top, by decide, by decide +kernel, by decide +kernel, by decide +kernel⟩

/-- Renaming the later of two siblings to the name of the earlier succeeds, and the renamed entry is not found any more. -/
theorem renamed_hidden : ∃ (rs : List Request) (h' : Heap) (i j : Nat) (newDN : Dn), i ≠ j ∧
    move asciiTables (built rs) i newDN = (h', none) ∧ lookup asciiTables h' 0 newDN = .ok j :=
  ⟨[.add C24.top a (attrs 'a'), .add C24.top b (attrs 'b')],
    (move asciiTables (built [.add C24.top a (attrs 'a'), .add C24.top b (attrs 'b')]) 2 (a :: C24.top)).1,
    2, 1, a :: C24.top, by decide, by decide +kernel, by decide +kernel⟩

/-- An entry moved below itself is cut off: the move succeeds and neither DN finds it. -/
theorem below_itself : ∃ (rs : List Request) (h' : Heap) (i : Nat) (old newDN : Dn),
    lookup asciiTables (built rs) 0 old = .ok i ∧ move asciiTables (built rs) i newDN = (h', none) ∧
    lookup asciiTables h' 0 old = .error .noSuchObject ∧ lookup asciiTables h' 0 newDN = .error .noSuchObject :=
  ⟨[.add C24.top a (attrs 'a')], (move asciiTables (built [.add C24.top a (attrs 'a')]) 1 (b :: a :: C24.top)).1,
    1, a :: C24.top, b :: a :: C24.top, by decide +kernel, by decide +kernel, by decide +kernel, by decide +kernel⟩

/-- A move that fails because an attribute of the new RDN is missing has already moved the entry out of its place: neither
DN finds it. -/
theorem half_moved : ∃ (rs : List Request) (h' : Heap) (i : Nat) (old newDN : Dn),
    lookup asciiTables (built rs) 0 old = .ok i ∧ move asciiTables (built rs) i newDN = (h', some .keyError) ∧
    lookup asciiTables h' 0 old = .error .noSuchObject ∧ lookup asciiTables h' 0 newDN = .error .noSuchObject :=
  ⟨[.add C24.top a (attrs 'a'), .add C24.top ou []],
    (move asciiTables (built [.add C24.top a (attrs 'a'), .add C24.top ou []]) 1 ([⟨['d'], ['a']⟩] :: ou :: C24.top)).1,
    1, a :: C24.top, [⟨['d'], ['a']⟩] :: ou :: C24.top, by decide +kernel, by decide +kernel, by decide +kernel, by decide +kernel⟩

/-- What a successful move leaves in the entry, whatever the tree and wherever it goes: the DN asked for, every value of the
new RDN, none of the old RDN unless the new one has it too, and every attribute that neither RDN names as it was. The
condition on the old RDN's attributes, that none has two values with the same octets, holds for every attribute set the code
builds through its own calls (C21). -/
theorem renamed_values {U : Unicode} {h h' : Heap} {i : Nat} {old new : Rdn} {d d' : Dn} {n : Node} (hn : h[i]? = some n)
    (hdn : n.entry.dn = old :: d) (hm : move U h i (new :: d') = (h', none)) :
    ∃ n', h'[i]? = some n' ∧ n'.entry.dn = new :: d' ∧
      (∀ v ∈ new, Rename.HasValue U n'.entry v.attributeType v.value) ∧
      ((∀ v ∈ old, Rename.NoTwins U n.entry v.attributeType) →
        ∀ v ∈ old, (∀ w ∈ new, Rename.SameType U v.attributeType w.attributeType → w.value ≠ v.value) →
          ¬ Rename.HasValue U n'.entry v.attributeType v.value) ∧
      (∀ s, (∀ v ∈ old ++ new, ¬ Rename.SameType U s v.attributeType) →
        n'.entry.get U (.text s) = n.entry.get U (.text s)) := by
  obtain ⟨old', d1, new', d2, e1, e2, n', g1, g2, hr, ha, hn', he⟩ := Rename.move_entry hn hm
  rw [hdn] at g1
  cases g1
  cases g2
  have hget : ∀ s, n'.entry.get U (.text s) = e2.get U (.text s) := fun s => by rw [he]; rfl
  have hval : ∀ s x, Rename.HasValue U n'.entry s x ↔ Rename.HasValue U e2 s x := fun s x => by
    simp only [Rename.HasValue, hget]
  refine ⟨n', hn', by rw [he], fun v hv => (hval _ _).mpr (Rename.addLoop_adds ha v hv), ?_, ?_⟩
  · intro ht v hv hw hx
    exact Rename.addLoop_absent ha (Rename.removeLoop_removes hr ht v hv) hw ((hval _ _).mp hx)
  · intro s hs
    rw [hget, Rename.rdnLoop_other ha (fun v hv => hs v (by simp [hv])), Rename.rdnLoop_other hr (fun v hv => hs v (by simp [hv]))]

/-- The hypotheses of `renamed_values` can be met, with RDNs of two attributes each. -/
example : ∃ (h h' : Heap) (n : Node) (old new : Rdn), old.length = 2 ∧ new.length = 2 ∧ h[1]? = some n ∧
    n.entry.dn = old :: C24.top ∧ move asciiTables h 1 (new :: C24.top) = (h', none) ∧
    (∀ v ∈ old, Rename.NoTwins asciiTables n.entry v.attributeType) := by
  refine ⟨built [.add C24.top [⟨['c'], ['a']⟩, ⟨['s'], ['b']⟩] [(.text ['c'], [.text ['a']]), (.text ['s'], [.text ['b']])]],
    (move asciiTables (built [.add C24.top [⟨['c'], ['a']⟩, ⟨['s'], ['b']⟩] [(.text ['c'], [.text ['a']]), (.text ['s'], [.text ['b']])]]) 1
      ([⟨['c'], ['x']⟩, ⟨['s'], ['y']⟩] :: C24.top)).1,
    ⟨⟨[⟨['c'], ['a']⟩, ⟨['s'], ['b']⟩] :: C24.top, [(.text ['c'], [.text ['a']]), (.text ['s'], [.text ['b']])]⟩, some 0, []⟩,
    [⟨['c'], ['a']⟩, ⟨['s'], ['b']⟩], [⟨['c'], ['x']⟩, ⟨['s'], ['y']⟩], rfl, rfl, by decide +kernel, rfl, by decide +kernel, ?_⟩
  intro v hv vs hvs
  simp only [List.mem_cons, List.not_mem_nil, or_false] at hv
  rcases hv with rfl | rfl
  · have h1 : Entry.firstOf asciiTables [(.text ['c'], [.text ['a']]), (.text ['s'], [.text ['b']])]
        [.text ['c'], .bytes (Utf8.encode ['c'])] = some [.text ['a']] := by decide +kernel
    simp only [Rename.get_text, h1, Except.ok.injEq, Option.some.injEq] at hvs
    subst hvs
    simp [C21.Distinct]
  · have h1 : Entry.firstOf asciiTables [(.text ['c'], [.text ['a']]), (.text ['s'], [.text ['b']])]
        [.text ['s'], .bytes (Utf8.encode ['s'])] = some [.text ['b']] := by decide +kernel
    simp only [Rename.get_text, h1, Except.ok.injEq, Option.some.injEq] at hvs
    subst hvs
    simp [C21.Distinct]

/-- The hypotheses of `move_leaf_partial` can be met, for a move to another parent. -/
example : Setting asciiTables C24.top [] [.add C24.top a (attrs 'a'), .add C24.top ou []] b ∧
    Below (built [.add C24.top a (attrs 'a'), .add C24.top ou []]) 0 1 ∧
    lookup asciiTables (built [.add C24.top a (attrs 'a'), .add C24.top ou []]) 0 (b :: ou :: C24.top) = .error .noSuchObject ∧
    (move asciiTables (built [.add C24.top a (attrs 'a'), .add C24.top ou []]) 1 (b :: ou :: C24.top)).2 = none := by
  refine ⟨⟨⟨?_, by decide +kernel⟩, ⟨b.text, by decide +kernel⟩, by decide +kernel⟩,
    ⟨_, .down (k := a.text) (childAs_of (by decide +kernel)) (.here 1)⟩, by decide +kernel, by decide +kernel⟩
  intro r hr
  refine ⟨r.text, ?_⟩
  revert r
  decide +kernel

end Verif.C25
