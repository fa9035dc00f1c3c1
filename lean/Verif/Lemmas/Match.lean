import Verif.Spec.Match
/-
Attribute access, and the loops of the evaluator.
-/
namespace Verif.Match
open Verif.Spec PyStr

theorem find_mem {U : Unicode} {d : Attrs} {k : PyStr} {vs : List PyStr} (h : d.find U k = some vs) :
    ∃ k', (k', vs) ∈ d ∧ k'.lower U = k.lower U := by
  induction d with
  | nil => cases h
  | cons p d ih =>
    obtain ⟨k', vs'⟩ := p
    simp only [Attrs.find] at h
    split at h
    · rename_i e; cases h; exact ⟨k', by simp, e⟩
    · obtain ⟨k'', hm, he⟩ := ih h; exact ⟨k'', by simp [hm], he⟩

theorem find_none {U : Unicode} {d : Attrs} {k : PyStr} (h : d.find U k = none) :
    ∀ k' vs, (k', vs) ∈ d → k'.lower U ≠ k.lower U := by
  induction d with
  | nil => simp
  | cons p d ih =>
    obtain ⟨k', vs'⟩ := p
    simp only [Attrs.find] at h
    split at h
    · cases h
    · rename_i e
      intro k2 vs2 hm
      rcases List.mem_cons.mp hm with hm | hm
      · cases hm; exact e
      · exact ih h k2 vs2 hm

/-- Two listings of the same attribute are the same listing. -/
theorem attr_unique {e : Entry} (he : WellNamed e) {a : PyStr} {vs ws : List PyStr} (h1 : HasAttr e a vs)
    (h2 : HasAttr e a ws) : vs = ws := by
  obtain ⟨k1, hm1, hn1⟩ := h1
  obtain ⟨k2, hm2, hn2⟩ := h2
  have hs : SameName k1 k2 := hn1.trans hn2.symm
  have hd := he.distinct
  clear he
  generalize e.attrs = d at hm1 hm2 hd
  induction d with
  | nil => cases hm1
  | cons p d ih =>
    rw [List.pairwise_cons] at hd
    rcases List.mem_cons.mp hm1 with e1 | m1 <;> rcases List.mem_cons.mp hm2 with e2 | m2
    · have := e1.trans e2.symm; cases this; rfl
    · subst e1; exact absurd hs (hd.1 _ m2)
    · subst e2; exact absurd hs.symm (hd.1 _ m1)
    · exact ih m1 m2 hd.2

theorem sameName_lower {U : Unicode} (hU : Sane U) {x y : PyStr} (hx : x.Ascii) (hy : y.Ascii) (h : x.lower U = y.lower U) :
    SameName x y := ((lower_eq_iff hU hx hy).mp h).2

/-- Attribute access finds the attribute, whichever form its name is given in. -/
theorem get_spec {U : Unicode} (hU : Sane U) {e : Entry} (he : WellNamed e) {a : PyStr} (ha : a.Ascii) :
    ∃ r, e.get U a = .ok r ∧ (∀ vs, r = some vs ↔ HasAttr e a vs) := by
  obtain ⟨l, hl⟩ := getStrings_total.mp (ascii_decodable ha)
  obtain ⟨y, rfl, hy1, hy2⟩ := getStrings_ok hl
  have hyA : y.Ascii := by unfold Ascii; rw [hy1]; exact ha
  refine ⟨Entry.firstOf U e.attrs [a, y], by simp [Entry.get, hl, bind, Except.bind, pure, Except.pure], ?_⟩
  have hsound : ∀ vs, Entry.firstOf U e.attrs [a, y] = some vs → HasAttr e a vs := by
    intro vs h
    simp only [Entry.firstOf] at h
    split at h
    · rename_i ws hf
      cases h
      obtain ⟨k, hm, hk⟩ := find_mem hf
      exact ⟨k, hm, sameName_lower hU (he.ascii _ _ hm) ha hk⟩
    · split at h
      · rename_i ws hf
        cases h
        obtain ⟨k, hm, hk⟩ := find_mem hf
        have h1 := sameName_lower hU (he.ascii _ _ hm) hyA hk
        unfold SameName at h1
        rw [hy1] at h1
        exact ⟨k, hm, h1⟩
      · cases h
  intro vs
  refine ⟨hsound vs, fun h => ?_⟩
  cases hr : Entry.firstOf U e.attrs [a, y] with
  | some ws => rw [attr_unique he h (hsound ws hr)]
  | none =>
    exfalso
    obtain ⟨k, hm, hn⟩ := h
    have hkA := he.ascii _ _ hm
    simp only [Entry.firstOf] at hr
    split at hr
    · cases hr
    · rename_i h1
      split at hr
      · cases hr
      · rename_i h2
        have n1 := find_none h1 _ _ hm
        have n2 := find_none h2 _ _ hm
        rw [Ne, lower_eq_iff hU hkA ha] at n1
        rw [Ne, lower_eq_iff hU hkA hyA, hy1, hy2] at n2
        cases hk : k.isText <;> cases ha : a.isText <;> simp_all [SameName]

/-- The value list the evaluator works on. -/
theorem get_values {U : Unicode} (hU : Sane U) {e : Entry} (he : WellNamed e) {a : PyStr} (ha : a.Ascii) :
    ∃ r, e.get U a = .ok r ∧ ∀ v, v ∈ r.getD [] ↔ ∃ vs, HasAttr e a vs ∧ v ∈ vs := by
  obtain ⟨r, h1, h2⟩ := get_spec hU he ha
  refine ⟨r, h1, fun v => ?_⟩
  cases r with
  | none =>
    simp only [Option.getD_none, List.not_mem_nil, false_iff]
    rintro ⟨vs, h, _⟩
    have := (h2 vs).mpr h
    cases this
  | some vs =>
    have hv := (h2 vs).mp rfl
    simp only [Option.getD_some]
    exact ⟨fun h => ⟨vs, hv, h⟩, fun ⟨ws, hw, hm⟩ => by rw [attr_unique he hv hw]; exact hm⟩

theorem anyPy_ok {α : Type} (p : α → Py Bool) (q : α → Bool) (l : List α) (h : ∀ x ∈ l, p x = .ok (q x)) :
    anyPy p l = .ok (l.any q) := by
  induction l with
  | nil => rfl
  | cons a l ih =>
    simp only [anyPy, h a (by simp), bind, Except.bind, List.any_cons]
    cases hq : q a
    · simpa using ih (fun x hx => h x (by simp [hx]))
    · simp [pure, Except.pure]

theorem lexLe_iff (l m : List Nat) : lexLe l m = true ↔ l ≤ m := by
  induction l generalizing m with
  | nil => simp [lexLe]
  | cons a l ih =>
    cases m with
    | nil => simp [lexLe]
    | cons b m =>
      simp only [lexLe]
      rw [List.cons_le_cons_iff]
      split
      · rename_i h; simp [h]
      · rename_i h
        split
        · rename_i h2; subst h2; simp [ih]
        · rename_i h2; simp; omega

theorem le_spec {x y : PyStr} (h : x.isText = y.isText) : ∃ b, x.le y = .ok b ∧ (b = true ↔ codes x ≤ codes y) := by
  cases x <;> cases y <;> simp [isText] at h
  · exact ⟨_, rfl, lexLe_iff _ _⟩
  · exact ⟨_, rfl, lexLe_iff _ _⟩

theorem inLower_iff {U : Unicode} {x : PyStr} {vs : List PyStr} : inLower U x vs = true ↔ ∃ v ∈ vs, v.lower U = x := by
  simp [inLower]

end Verif.Match
