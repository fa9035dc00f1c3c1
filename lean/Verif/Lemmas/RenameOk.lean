import Verif.Lemmas.Rename
/-
When a move succeeds, and that it changes one entry only.
-/
namespace Verif.Rename
open Verif.Dn Verif.Tree C21

variable {U : Unicode}

/-- The entry has every value of the old RDN, the attributes of the old RDN are different ones, and the entry has every
attribute of the new RDN. -/
structure Renamable (U : Unicode) (e : Entry) (old new : Rdn) : Prop where
  has : ∀ a ∈ old, HasValue U e a.attributeType a.value
  apart : old.Pairwise fun a b => ¬ SameType U b.attributeType a.attributeType
  known : ∀ b ∈ new, ∃ vs, e.get U (.text b.attributeType) = .ok (some vs)

theorem changeItem_ok {e : Entry} {t : Str} {f : List PyStr → Py (List PyStr)} {vs vs' : List PyStr}
    (hg : e.get U (.text t) = .ok (some vs)) (hf : f vs = .ok vs') : ∃ e', e.changeItem U (.text t) f = (e', none) := by
  rw [get_text] at hg
  simp only [Entry.changeItem, PyStr.getStrings]
  cases hk : Entry.formOf U e.attrs [.text t, .bytes (Utf8.encode t)] with
  | none =>
    simp only [Entry.formOf] at hk
    simp only [Entry.firstOf] at hg
    cases h1 : e.attrs.find U (.text t) <;> cases h2 : e.attrs.find U (.bytes (Utf8.encode t)) <;> simp [h1, h2] at hk hg
  | some k =>
    obtain ⟨_, ws, h1, h2⟩ := formOf_some hk
    rw [h2] at hg
    cases hg
    simp [h1, hf]

theorem remove_has {s : List PyStr} {x : Str} (h : Has s (Utf8.encode x)) : ∃ s', AttributeSet.remove s (.text x) = .ok s' := by
  simp only [AttributeSet.remove, PyStr.getStrings, bind, Except.bind]
  cases hf : AttributeSet.firstIn s [.text x, .bytes (Utf8.encode x)] with
  | some k => exact ⟨_, rfl⟩
  | none =>
    have hn := firstIn_none hf
    obtain ⟨v, hv, e⟩ := h
    cases v with
    | text y =>
      cases Utf8.encode_injective (show Utf8.encode y = Utf8.encode x from e)
      exact absurd hv (hn _ (by simp))
    | bytes y =>
      cases (show y = Utf8.encode x from e)
      exact absurd hv (hn _ (by simp))

theorem removeLoop_ok {r : Rdn} {e : Entry} (hh : ∀ a ∈ r, HasValue U e a.attributeType a.value)
    (hp : r.Pairwise fun a b => ¬ SameType U b.attributeType a.attributeType) :
    ∃ e', rdnLoop U (fun v s => AttributeSet.remove s v) r e = (e', none) := by
  induction r generalizing e with
  | nil => exact ⟨e, rfl⟩
  | cons a r ih =>
    obtain ⟨vs, hg, hv⟩ := hh a (by simp)
    obtain ⟨vs', hv'⟩ := remove_has hv
    obtain ⟨e1, h1⟩ := changeItem_ok (f := fun s => AttributeSet.remove s (.text a.value)) hg hv'
    obtain ⟨hpa, hpr⟩ := List.pairwise_cons.mp hp
    obtain ⟨_, _, _, _, _, _, hall⟩ := changeItem_spec h1
    obtain ⟨e2, h2⟩ := ih (e := e1) (fun b hb => by
      obtain ⟨ws, g1, g2⟩ := hh b (by simp [hb])
      rcases hall b.attributeType with g | ⟨g, _⟩
      · exact ⟨ws, by rw [g, g1], g2⟩
      · exact absurd g (hpa b hb)) hpr
    exact ⟨e2, by simp only [rdnLoop, h1, h2]⟩

/-- The loops keep the attributes that are there. -/
theorem rdnLoop_known {f : PyStr → List PyStr → Py (List PyStr)} {r : Rdn} {e e' : Entry} (h : rdnLoop U f r e = (e', none)) {s : Str}
    {vs : List PyStr} (hs : e.get U (.text s) = .ok (some vs)) : ∃ ws, e'.get U (.text s) = .ok (some ws) := by
  induction r generalizing e vs with
  | nil => cases h; exact ⟨vs, hs⟩
  | cons a r ih =>
    simp only [rdnLoop] at h
    split at h
    · rename_i e1 hc
      obtain ⟨_, _, _, _, _, _, hall⟩ := changeItem_spec hc
      rcases hall s with h1 | ⟨_, _, h1⟩
      · exact ih h (h1.trans hs)
      · exact ih h h1
    · simp at h

theorem addLoop_ok {r : Rdn} {e : Entry} (hk : ∀ b ∈ r, ∃ vs, e.get U (.text b.attributeType) = .ok (some vs)) :
    ∃ e', rdnLoop U (fun v s => AttributeSet.add s v) r e = (e', none) := by
  induction r generalizing e with
  | nil => exact ⟨e, rfl⟩
  | cons a r ih =>
    obtain ⟨vs, hg⟩ := hk a (by simp)
    obtain ⟨vs', hv'⟩ : ∃ vs', AttributeSet.add vs (.text a.value) = .ok vs' := by
      rcases add_text vs a.value with ⟨_, h⟩ | ⟨_, h⟩ <;> exact ⟨_, h⟩
    obtain ⟨e1, h1⟩ := changeItem_ok (f := fun s => AttributeSet.add s (.text a.value)) hg hv'
    have hone : rdnLoop U (fun v s => AttributeSet.add s v) [a] e = (e1, none) := by simp only [rdnLoop, h1]
    obtain ⟨e2, h2⟩ := ih (e := e1) (fun b hb => by
      obtain ⟨ws, g⟩ := hk b (by simp [hb])
      exact rdnLoop_known hone g)
    exact ⟨e2, by simp only [rdnLoop, h1, h2]⟩

/-- Renaming in place succeeds. -/
theorem move2_none_ok {h : Heap} {i : Nat} {n : Node} {old new : Rdn} {d d' : Dn.Dn} (hn : h[i]? = some n) (hd : n.entry.dn = old :: d)
    (hr : Renamable U n.entry old new) : ∃ h', move2 U h i none (new :: d') = (h', none) := by
  obtain ⟨e1, h1⟩ := removeLoop_ok hr.has hr.apart
  obtain ⟨e2, h2⟩ := addLoop_ok (r := new) (e := e1) (fun b hb => by
    obtain ⟨vs, g⟩ := hr.known b hb
    exact rdnLoop_known h1 g)
  simp [move2, hn, hd, h1, h2]

/-- Moving to another parent succeeds. -/
theorem move2_some_ok {h : Heap} {i p np : Nat} {n q pn : Node} {old new : Rdn} {d d' : Dn.Dn} (hn : h[i]? = some n)
    (hd : n.entry.dn = old :: d) (hr : Renamable U n.entry old new) (hq : h[np]? = some q) (hp : n.parent = some p)
    (hpn : h[p]? = some pn) (hnp : np ≠ p) (hni : i ≠ np) (hpi : i ≠ p) (hk : old.text ∈ pn.children.map (·.1)) :
    ∃ h', move2 U h i (some np) (new :: d') = (h', none) := by
  obtain ⟨e1, h1⟩ := removeLoop_ok hr.has hr.apart
  obtain ⟨e2, h2⟩ := addLoop_ok (r := new) (e := e1) (fun b hb => by
    obtain ⟨vs, g⟩ := hr.known b hb
    exact rdnLoop_known h1 g)
  have g1 : (h.set np { q with children := setKey new.text i q.children })[p]? = some pn := by
    rw [List.getElem?_set, if_neg hnp, hpn]
  have g2 : ((h.set np { q with children := setKey new.text i q.children }).set p
      { pn with children := pn.children.filter (fun x => x.1 ≠ old.text) })[i]? = some n := by
    rw [List.getElem?_set, if_neg (Ne.symm hpi), List.getElem?_set, if_neg (Ne.symm hni), hn]
  simp only [move2, hn, hq, hp, hd, g1, if_pos hk, g2, h1, h2]
  exact ⟨_, rfl⟩

/-- The entry at every other node is as it was, whether or not the move succeeds. -/
theorem move_other {h : Heap} {i j : Nat} {newDN : Dn.Dn} (hj : j ≠ i) :
    ((move U h i newDN).1[j]?).map (·.entry) = (h[j]?).map (·.entry) := by
  have step : ∀ (g : Heap) (k : Nat) (m : Node) (cs : List (Str × Nat)), g[k]? = some m →
      ((g.set k { m with children := cs })[j]?).map (·.entry) = (g[j]?).map (·.entry) := by
    intro g k m cs hm
    by_cases hk : k = j
    · subst hk
      rw [List.getElem?_set, if_pos rfl, if_pos (List.getElem?_eq_some_iff.mp hm).1, hm]
      rfl
    · rw [List.getElem?_set, if_neg hk]
  have self : ∀ (g : Heap) (m : Node), ((g.set i m)[j]?).map (·.entry) = (g[j]?).map (·.entry) := by
    intro g m
    rw [List.getElem?_set, if_neg (Ne.symm hj)]
  have two : ∀ np, ((move2 U h i np newDN).1[j]?).map (·.entry) = (h[j]?).map (·.entry) := by
    intro np
    have tail : ∀ h1 : Heap, (h1[j]?).map (·.entry) = (h[j]?).map (·.entry) →
        (((match h1[i]? with
          | none => (h1, some PyErr.other)
          | some self =>
            match self.entry.dn, newDN with
            | [], _ => (h1, some .indexError)
            | old :: _, [] =>
              match rdnLoop U (fun v s => AttributeSet.remove s v) old self.entry with
              | (e, x) => (h1.set i { self with entry := e }, some (x.getD .indexError))
            | old :: _, new :: _ =>
              match rdnLoop U (fun v s => AttributeSet.remove s v) old self.entry with
              | (e, some x) => (h1.set i { self with entry := e }, some x)
              | (e, none) =>
                match rdnLoop U (fun v s => AttributeSet.add s v) new e with
                | (e, some x) => (h1.set i { self with entry := e }, some x)
                | (e, none) => (h1.set i { self with entry := { e with dn := newDN } }, none)) : Heap × Option PyErr).1[j]?).map (·.entry) =
          (h[j]?).map (·.entry) := by
      intro h1 hh
      rw [← hh]
      repeat' split
      all_goals first | rfl | exact self _ _
    cases hi : h[i]? with
    | none => simp only [move2, hi]
    | some n =>
      cases np with
      | none =>
        have := tail h rfl
        simp only [hi] at this
        simp only [move2, hi]
        exact this
      | some np =>
        cases newDN with
        | nil => simp only [move2, hi]
        | cons r d =>
          cases hq : h[np]? with
          | none => simp only [move2, hi, hq]
          | some q =>
            have s1 := step h np q (setKey r.text i q.children) hq
            cases hp : n.parent with
            | none => simpa only [move2, hi, hq, hp] using s1
            | some p =>
              cases ho : n.entry.dn with
              | nil => simpa only [move2, hi, hq, hp, ho] using s1
              | cons old d2 =>
                cases hpn : (h.set np { q with children := setKey r.text i q.children })[p]? with
                | none => simpa only [move2, hi, hq, hp, ho, hpn] using s1
                | some pn =>
                  by_cases hk : old.text ∈ pn.children.map (·.1)
                  · have s2 := step _ p pn (pn.children.filter (fun x => x.1 ≠ old.text)) hpn
                    have := tail _ (s2.trans s1)
                    simp only [move2, hi, hq, hp, ho, hpn, if_pos hk]
                    exact this
                  · simpa only [move2, hi, hq, hp, ho, hpn, if_neg hk] using s1
  unfold move
  repeat' split
  all_goals first | rfl | exact two _

end Verif.Rename
