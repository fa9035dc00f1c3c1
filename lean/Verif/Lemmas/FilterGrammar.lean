import Verif.Lemmas.FilterText
import Verif.Spec.FilterGrammar
/-
The filter parser and the grammar of filter texts.
-/
namespace Verif.FilterText
open Verif.Spec

theorem hexValue_iff {c : Char} {n : Nat} : hexValue c = some n ↔ HexDigit c n := by
  have ord : ∀ {a b : Char}, a ≤ b ↔ a.toNat ≤ b.toNat := Iff.rfl
  have e0 : '0'.toNat = 48 := rfl
  have e9 : '9'.toNat = 57 := rfl
  have ea : 'a'.toNat = 97 := rfl
  have ef : 'f'.toNat = 102 := rfl
  have eA : 'A'.toNat = 65 := rfl
  have eF : 'F'.toNat = 70 := rfl
  unfold hexValue HexDigit
  simp only [ord, e0, e9, ea, ef, eA, eF]
  split
  · simp only [Option.some.injEq]; omega
  · split
    · simp only [Option.some.injEq]; omega
    · split
      · simp only [Option.some.injEq]; omega
      · constructor
        · intro h; cases h
        · omega

theorem enc_iff {t v : Str} : ValueText t v ↔ Enc v t := by
  constructor
  · intro h
    induction h with
    | nil => exact .nil
    | plain c t v hc _ ih => exact .plain _ _ _ hc ih
    | hex h l m n t v hh hl _ ih => exact .hex _ _ _ _ _ _ _ (hexValue_iff.mpr hh) (hexValue_iff.mpr hl) rfl ih
  · intro h
    induction h with
    | nil => exact .nil
    | plain c t v hc _ ih => exact .plain _ _ _ hc ih
    | hex c h l v t a b hh hl e _ ih => subst e; exact .hex _ _ _ _ _ _ (hexValue_iff.mp hh) (hexValue_iff.mp hl) ih

/-! ### What each parser takes -/

theorem pAttr_sound {s a r : Str} (h : pAttr s = some (a, r)) : s = a ++ r ∧ AttrName a := by
  cases s with
  | nil => cases h
  | cons c s =>
    rw [pAttr] at h
    split at h
    · rename_i hc
      cases h
      refine ⟨by simp, (attrName_iff _).mpr ⟨c, _, rfl, hc, ?_⟩⟩
      intro x hx
      exact (List.all_takeWhile (l := s) (p := isAttrChar)) |> fun h => List.all_eq_true.mp h x hx
    · cases h

theorem pChars_sound (s : Str) : ∃ u, s = u ++ (pChars s).2 ∧ Enc (pChars s).1 u := by
  fun_induction pChars s with
  | case1 => exact ⟨[], rfl, .nil⟩
  | case2 h l s a b ha hb ih =>
    obtain ⟨u, hu, he⟩ := ih
    refine ⟨'\\' :: h :: l :: u, ?_, .hex _ _ _ _ _ a b hb ha rfl he⟩
    simp only [List.cons_append, ← hu]
  | case3 => exact ⟨[], rfl, .nil⟩
  | case4 => exact ⟨[], rfl, .nil⟩
  | case5 c s hne hc ih =>
    obtain ⟨u, hu, he⟩ := ih
    refine ⟨c :: u, ?_, .plain _ _ _ hc he⟩
    simp only [List.cons_append, ← hu]

theorem pValue_sound {s v r : Str} (h : pValue s = some (v, r)) : ∃ t, s = t ++ r ∧ v ≠ [] ∧ ValueText t v := by
  obtain ⟨u, h1, h2⟩ := pChars_sound s
  unfold pValue at h
  split at h
  · cases h
  · rename_i hne e
    cases h
    rw [e] at h1 h2
    refine ⟨_, h1, ?_, enc_iff.mpr h2⟩
    rintro rfl; exact hne rfl

theorem pOpt_sound (s : Str) : ∃ t, s = t ++ (pOpt pValue s).2 ∧ PartText t (pOpt pValue s).1 := by
  unfold pOpt
  split
  · rename_i e
    exact pValue_sound e
  · exact ⟨[], rfl, rfl⟩

theorem pAnyValue_sound {s v r : Str} (h : pAnyValue s = some (v, r)) :
    ∃ t, s = t ++ '*' :: r ∧ v ≠ [] ∧ ValueText t v := by
  unfold pAnyValue at h
  simp only [Option.bind_eq_bind, Option.bind_eq_some_iff, Option.pure_def, Option.some.injEq, Prod.mk.injEq] at h
  obtain ⟨⟨v', s1⟩, e1, s2, e2, rfl, rfl⟩ := h
  obtain ⟨t, rfl, hv, ht⟩ := pValue_sound e1
  have := pLit_spec e2
  simp only at this
  subst this
  exact ⟨t, rfl, hv, ht⟩

theorem pAnyValues_sound (n : Nat) (s : Str) : ∃ as : List (Str × Str),
    s = (as.map fun p => p.1 ++ ['*']).flatten ++ (pAnyValues n s).2 ∧ (pAnyValues n s).1 = as.map Prod.snd ∧
      ∀ p ∈ as, p.2 ≠ [] ∧ ValueText p.1 p.2 := by
  induction n generalizing s with
  | zero => exact ⟨[], rfl, rfl, by simp⟩
  | succ n ih =>
    rw [pAnyValues]
    split
    · rename_i v r e
      obtain ⟨t, rfl, hv, ht⟩ := pAnyValue_sound e
      obtain ⟨as, h1, h2, h3⟩ := ih r
      refine ⟨(t, v) :: as, ?_, by simp [h2], ?_⟩
      · conv => lhs; rw [h1]
        simp
      · intro p hp
        rcases List.mem_cons.mp hp with rfl | hp
        · exact ⟨hv, ht⟩
        · exact h3 p hp
    · exact ⟨[], rfl, rfl, by simp⟩

theorem pDigits_sound {s d r : Str} (h : pDigits s = some (d, r)) : s = d ++ r ∧ d ≠ [] ∧ ∀ x ∈ d, isDigit x = true := by
  unfold pDigits at h
  split at h
  · cases h
  · rename_i hne
    cases h
    refine ⟨by simp, fun e => hne e, ?_⟩
    intro x hx
    exact List.all_eq_true.mp (List.all_takeWhile (l := s) (p := isDigit)) x hx

theorem pDotted_sound (n : Nat) (s : Str) : s = (pDotted n s).1 ++ (pDotted n s).2 ∧
    ∀ d, d ≠ [] → (∀ x ∈ d, isDigit x = true) → NumericOid (d ++ (pDotted n s).1) := by
  have none : ∀ d : Str, d ≠ [] → (∀ x ∈ d, isDigit x = true) → NumericOid (d ++ []) := by
    intro d h1 h2; rw [List.append_nil]; exact .single d h1 (fun x hx => (digit_iff x).mpr (h2 x hx))
  induction n generalizing s with
  | zero => exact ⟨rfl, none⟩
  | succ n ih =>
    rw [pDotted.eq_def]
    simp only
    split
    · split
      · rename_i ds r e
        obtain ⟨h1, h2, h3⟩ := pDigits_sound e
        obtain ⟨i1, i2⟩ := ih r
        subst h1
        refine ⟨?_, ?_⟩
        · simp only [List.cons_append, List.append_assoc, ← i1]
        · intro d hd hd'
          exact .dot d _ hd (fun x hx => (digit_iff x).mpr (hd' x hx)) (i2 ds h2 h3)
      · exact ⟨rfl, none⟩
    · exact ⟨rfl, none⟩

theorem pMatchingRule_sound {s x r : Str} (h : pMatchingRule s = some (x, r)) : s = x ++ r ∧ RuleName x := by
  unfold pMatchingRule at h
  split at h
  · rename_i e
    cases h
    unfold pNumericOid at e
    simp only [Option.bind_eq_bind, Option.bind_eq_some_iff, Option.pure_def, Option.some.injEq, Prod.mk.injEq] at e
    obtain ⟨⟨d, s1⟩, e1, rfl, rfl⟩ := e
    obtain ⟨h1, h2, h3⟩ := pDigits_sound e1
    obtain ⟨i1, i2⟩ := pDotted_sound s1.length s1
    subst h1
    refine ⟨?_, .inl (i2 d h2 h3)⟩
    simp only [List.append_assoc, ← i1]
  · obtain ⟨h1, h2⟩ := pAttr_sound h
    exact ⟨h1, .inr h2⟩

theorem pColonRule_sound {s x r : Str} (h : pColonRule s = some (x, r)) : s = ':' :: (x ++ r) ∧ RuleName x := by
  unfold pColonRule at h
  simp only [Option.bind_eq_bind, Option.bind_eq_some_iff] at h
  obtain ⟨s1, e1, e2⟩ := h
  have := pLit_spec e1
  obtain ⟨rfl, hr⟩ := pMatchingRule_sound e2
  exact ⟨this, hr⟩

theorem pDnFlag_sound (s : Str) : s = flagText (pDnFlag s).1 ++ (pDnFlag s).2 := by
  unfold pDnFlag
  split
  · rename_i e
    have := pLit_spec e
    simpa [flagText] using this
  · simp [flagText]

theorem pOptRule_sound (s : Str) :
    s = ruleText (pOpt pColonRule s).1 ++ (pOpt pColonRule s).2 ∧ ∀ x ∈ (pOpt pColonRule s).1, RuleName x := by
  unfold pOpt
  split
  · rename_i e
    obtain ⟨h1, h2⟩ := pColonRule_sound e
    refine ⟨by simpa [ruleText] using h1, ?_⟩
    intro x hx; cases hx; exact h2
  · exact ⟨by simp [ruleText], by simp⟩

theorem longer_strict {α : Type} {a b : Option (α × Str)} {x : α × Str} (h : longer a b = some x) :
    a = some x ∨ (b = some x ∧ ∀ y, a = some y → x.2.length < y.2.length) := by
  cases a with
  | none => exact .inr ⟨h, nofun⟩
  | some a =>
    cases b with
    | none => exact .inl h
    | some b =>
      rw [longer] at h
      split at h
      · rename_i hlt
        cases h
        exact .inr ⟨rfl, by intro y hy; cases hy; exact hlt⟩
      · exact .inl h

theorem longer_right {α : Type} {a b : Option (α × Str)} {x : α × Str} (h : b = some x) :
    ∃ z, longer a b = some z ∧ z.2.length ≤ x.2.length := by
  subst h
  cases a with
  | none => exact ⟨x, rfl, Nat.le_refl _⟩
  | some a =>
    rw [longer]
    split
    · exact ⟨x, rfl, Nat.le_refl _⟩
    · exact ⟨a, rfl, by omega⟩

/-- What the item parser takes is the text of an item. -/
theorem clear_rule {s x r : Str} {a : Option Str} {v : Str} (h : (pDnFlag s).2 = ':' :: (x ++ r)) :
    ClearRules (.extensible (some x) a v (some (pDnFlag s).1)) := by
  rw [ClearRules]
  cases hd : (pDnFlag s).1 with
  | true => exact .inl rfl
  | false =>
    right
    rintro ⟨y, rfl⟩
    unfold pDnFlag at hd h
    split at hd
    · cases hd
    · rename_i e
      rw [e] at h
      simp only at h
      rw [h] at e
      revert e
      simp [pLit]

theorem pItem_sound {s r : Str} {f : Filter} (h : pItem s = some (f, r)) :
    ∃ t, s = t ++ r ∧ ItemText t f ∧ ClearRules f := by
  unfold pItem at h
  rcases longer_mem h with h | h
  · have key : longer (pSimple s) (pPresent s) = some (f, r) ∨ (pSubstring s = some (f, r) ∧
        ∀ a r', pPresent s = some (.present a, r') → r.length < r'.length) := by
      rcases longer_strict h with h' | ⟨h', hlt⟩
      · exact .inl h'
      · refine .inr ⟨h', ?_⟩
        intro a r' hp
        obtain ⟨z, hz, hle⟩ := longer_right (a := pSimple s) hp
        have := hlt z hz
        simp only at this hle
        omega
    rcases key with h | ⟨h, hsub⟩
    · rcases longer_mem h with h | h
      · unfold pSimple at h
        simp only [Option.bind_eq_bind, Option.bind_eq_some_iff, Option.pure_def, Option.some.injEq, Prod.mk.injEq] at h
        obtain ⟨⟨a, s1⟩, e1, ⟨mk, s2⟩, e2, ⟨v, s3⟩, e3, h1, h2⟩ := h
        simp only at e2 e3 h1 h2
        subst h1 h2
        obtain ⟨rfl, ha⟩ := pAttr_sound e1
        obtain ⟨t, rfl, hv, ht⟩ := pValue_sound e3
        unfold pFilterType at e2
        split at e2
        · rename_i e; cases e2; rw [pLit_spec e]
          exact ⟨_, by simp, .equality a t v ha hv ht, by simp [ClearRules]⟩
        · split at e2
          · rename_i e; cases e2; rw [pLit_spec e]
            exact ⟨_, by simp, .approx a t v ha hv ht, by simp [ClearRules]⟩
          · split at e2
            · rename_i e; cases e2; rw [pLit_spec e]
              exact ⟨_, by simp, .greaterOrEqual a t v ha hv ht, by simp [ClearRules]⟩
            · split at e2
              · rename_i e; cases e2; rw [pLit_spec e]
                exact ⟨_, by simp, .lessOrEqual a t v ha hv ht, by simp [ClearRules]⟩
              · cases e2
      · unfold pPresent at h
        simp only [Option.bind_eq_bind, Option.bind_eq_some_iff, Option.pure_def, Option.some.injEq, Prod.mk.injEq] at h
        obtain ⟨⟨a, s1⟩, e1, s2, e2, rfl, rfl⟩ := h
        obtain ⟨rfl, ha⟩ := pAttr_sound e1
        simp only at e2
        rw [pLit_spec e2]
        exact ⟨_, by simp, .present a ha, by simp [ClearRules]⟩
    · unfold pSubstring at h
      simp only [Option.bind_eq_bind, Option.bind_eq_some_iff, Option.pure_def, Option.some.injEq, Prod.mk.injEq] at h
      obtain ⟨⟨a, s1⟩, e1, s2, e2, s3, e3, h1, h2⟩ := h
      simp only at e2 e3 h1 h2
      obtain ⟨ti, hi1, hi2⟩ := pOpt_sound s2
      obtain ⟨as, ha1, ha2, ha3⟩ := pAnyValues_sound s3.length s3
      obtain ⟨tf, hf1, hf2⟩ := pOpt_sound (pAnyValues s3.length s3).2
      have hs1 := pLit_spec e2
      have hs3 := pLit_spec e3
      have hstep : s = a ++ '=' :: (ti ++ '*' :: s3) := by
        rw [(pAttr_sound e1).1, hs1, hi1, hs3]; rfl
      have hs3' : s3 = (as.map fun p => p.1 ++ ['*']).flatten ++ (tf ++ r) := by
        rw [← h2, ← hf1]; exact ha1
      have hat := (pAttr_sound e1).2
      subst h1
      generalize (pOpt pValue s2).1 = i at *
      generalize (pOpt pValue (pAnyValues s3.length s3).2).1 = f at *
      rw [ha2]
      have hne : pieces i (as.map Prod.snd) f ≠ [] := by
        intro e
        have hi0 : i = none := by cases i with
          | none => rfl
          | some => simp [pieces] at e
        have hf0 : f = none := by cases f with
          | none => rfl
          | some => simp [pieces] at e
        have has0 : as = [] := by cases as with
          | nil => rfl
          | cons => simp [pieces] at e
        subst hi0 hf0 has0
        have hi2 : ti = [] := hi2
        have hf2 : tf = [] := hf2
        subst hi2 hf2
        have : pPresent s = some (.present a, r) := by
          rw [hstep, hs3']
          unfold pPresent
          simp only [pAttr_name hat (c := '=') (by decide), Option.bind_eq_bind, Option.bind_some, List.nil_append,
            List.map_nil, List.flatten_nil]
          rw [pLit_two]
          rfl
        have := hsub a r this
        omega
      refine ⟨_, ?_, .substrings a ti tf i f as hat hi2 hf2 ha3 hne, by simp [ClearRules]⟩
      rw [hstep, hs3']
      simp
  · unfold pExtensible at h
    split at h
    · rename_i e
      cases h
      unfold pExtAttr at e
      simp only [Option.bind_eq_bind, Option.bind_eq_some_iff, Option.pure_def, Option.some.injEq, Prod.mk.injEq] at e
      obtain ⟨⟨a, s1⟩, e1, s2, e2, ⟨v, s3⟩, e3, h1, h2⟩ := e
      simp only at e2 e3 h1 h2
      subst h1 h2
      obtain ⟨rfl, ha⟩ := pAttr_sound e1
      have hd := pDnFlag_sound s1
      obtain ⟨hr, hr'⟩ := pOptRule_sound (pDnFlag s1).2
      obtain ⟨t, rfl, hv, ht⟩ := pValue_sound e3
      have hl := pLit_spec e2
      refine ⟨_, ?_, .extensible a t v (pDnFlag s1).1 _ ha hr' hv ht, ?_⟩
      rotate_left
      · cases ho : (pOpt pColonRule (pDnFlag s1).2).1 with
        | none => simp [ClearRules]
        | some x => rw [ho] at hr; exact clear_rule hr
      rw [hl] at hr
      rw [hr] at hd
      conv => lhs; rw [hd]
      simp
    · unfold pExtNoAttr at h
      simp only [Option.bind_eq_bind, Option.bind_eq_some_iff, Option.pure_def, Option.some.injEq, Prod.mk.injEq] at h
      obtain ⟨⟨x, s1⟩, e1, s2, e2, ⟨v, s3⟩, e3, h1, h2⟩ := h
      simp only at e2 e3 h1 h2
      subst h1 h2
      obtain ⟨hr, hr'⟩ := pColonRule_sound e1
      have hd := pDnFlag_sound s
      obtain ⟨t, rfl, hv, ht⟩ := pValue_sound e3
      have hl := pLit_spec e2
      refine ⟨_, ?_, .rule x t v (pDnFlag s).1 hr' hv ht, clear_rule hr⟩
      rw [hl] at hr
      rw [hr] at hd
      conv => lhs; rw [hd]
      simp [ruleText]

/-- What the parsers of whole filters take, for one recursion bound. -/
structure Sound (n : Nat) : Prop where
  filter : ∀ s f r, pFilter n s = some (f, r) → ∃ t, s = t ++ r ∧ Denotes t f ∧ ClearRules f
  comp : ∀ s f r, pComp n s = some (f, r) → ∃ t, s = t ++ r ∧ Denotes ('(' :: (t ++ [')'])) f ∧ ClearRules f
  and : ∀ s f r, pAnd n s = some (f, r) → ∃ t, s = t ++ r ∧ Denotes ('(' :: (t ++ [')'])) f ∧ ClearRules f
  or : ∀ s f r, pOr n s = some (f, r) → ∃ t, s = t ++ r ∧ Denotes ('(' :: (t ++ [')'])) f ∧ ClearRules f
  not : ∀ s f r, pNot n s = some (f, r) → ∃ t, s = t ++ r ∧ Denotes ('(' :: (t ++ [')'])) f ∧ ClearRules f
  filters : ∀ s, ∃ ps : List (Str × Filter), s = (ps.map Prod.fst).flatten ++ (pFilters n s).2 ∧
    (pFilters n s).1 = ps.map Prod.snd ∧ ∀ p ∈ ps, Denotes p.1 p.2 ∧ ClearRules p.2

theorem sound (n : Nat) : Sound n := by
  induction n with
  | zero => exact ⟨nofun, nofun, nofun, nofun, nofun, fun s => ⟨[], rfl, rfl, by simp⟩⟩
  | succ n ih =>
    constructor
    · intro s f r h
      rw [pFilter] at h
      repeat' split at h
      all_goals first | (cases h; done) | skip
      rename_i e1 _ _ _ e2 _ _ e3
      cases h
      obtain ⟨t, rfl, ht⟩ := ih.comp _ _ _ e2
      obtain ht' := pLit_spec e1
      obtain ht'' := pLit_spec e3
      subst ht' ht''
      exact ⟨_, by simp, ht⟩
    · intro s f r h
      rw [pComp] at h
      split at h
      · rename_i e; cases h; exact ih.and _ _ _ e
      · split at h
        · rename_i e; cases h; exact ih.or _ _ _ e
        · split at h
          · rename_i e; cases h; exact ih.not _ _ _ e
          · obtain ⟨t, h1, h2, h3⟩ := pItem_sound h
            exact ⟨t, h1, .item t f h2, h3⟩
    · intro s f r h
      rw [pAnd] at h
      split at h
      · cases h
      · rename_i s' e
        have hl := pLit_spec e
        obtain ⟨ps, h1, h2, h3⟩ := ih.filters s'
        split at h
        · cases h
        · rename_i hne e2
          cases h
          rw [e2] at h1 h2
          simp only at h1 h2
          subst h2
          refine ⟨'&' :: (ps.map Prod.fst).flatten, by rw [hl, h1]; rfl, ?_⟩
          have := Denotes.and ps (by rintro rfl; exact hne rfl) (fun p hp => (h3 p hp).1)
          refine ⟨by simpa using this, ?_⟩
          rw [ClearRules]
          intro f hf
          obtain ⟨p, hp, rfl⟩ := List.mem_map.mp hf
          exact (h3 p hp).2
    · intro s f r h
      rw [pOr] at h
      split at h
      · cases h
      · rename_i s' e
        have hl := pLit_spec e
        obtain ⟨ps, h1, h2, h3⟩ := ih.filters s'
        split at h
        · cases h
        · rename_i hne e2
          cases h
          rw [e2] at h1 h2
          simp only at h1 h2
          subst h2
          refine ⟨'|' :: (ps.map Prod.fst).flatten, by rw [hl, h1]; rfl, ?_⟩
          have := Denotes.or ps (by rintro rfl; exact hne rfl) (fun p hp => (h3 p hp).1)
          refine ⟨by simpa using this, ?_⟩
          rw [ClearRules]
          intro f hf
          obtain ⟨p, hp, rfl⟩ := List.mem_map.mp hf
          exact (h3 p hp).2
    · intro s f r h
      rw [pNot] at h
      split at h
      · cases h
      · rename_i s' e
        have hl := pLit_spec e
        split at h
        · cases h
        · rename_i e2
          cases h
          obtain ⟨t, h1, h2⟩ := ih.filter _ _ _ e2
          refine ⟨'!' :: t, by rw [hl, h1]; rfl, ?_⟩
          have := Denotes.not t _ h2.1
          refine ⟨by simpa using this, ?_⟩
          rw [ClearRules]
          exact h2.2
    · intro s
      rw [pFilters]
      split
      · exact ⟨[], rfl, rfl, by simp⟩
      · rename_i f r e
        obtain ⟨t, h1, h2⟩ := ih.filter _ _ _ e
        obtain ⟨ps, i1, i2, i3⟩ := ih.filters r
        refine ⟨(t, f) :: ps, ?_, by simp [i2], ?_⟩
        · rw [h1]
          conv => lhs; rw [i1]
          simp
        · intro p hp
          rcases List.mem_cons.mp hp with rfl | hp
          · exact h2
          · exact i3 p hp

/-! ### What the grammar admits is read -/

theorem part_enc {t : Str} {o : Option Str} (h : PartText t o) : Enc (o.getD []) t ∧ ∀ x ∈ o, x ≠ [] := by
  cases o with
  | none => have : t = [] := h; subst this; exact ⟨.nil, by simp⟩
  | some v => exact ⟨enc_iff.mp h.2, by intro x hx; cases hx; exact h.1⟩

theorem item_parse {t : Str} {f : Filter} (h : ItemText t f) (hc : ClearRules f) (r : Str) :
    need f = 2 ∧ ItemStart (t ++ ')' :: r) ∧ pItem (t ++ ')' :: r) = some (f, ')' :: r) := by
  cases h with
  | equality a t v ha hv ht =>
    refine ⟨rfl, by simpa using attr_itemStart ha _, ?_⟩
    have := pItem_equality ha (enc_iff.mp ht) hv r
    simpa using this
  | greaterOrEqual a t v ha hv ht =>
    refine ⟨rfl, by simpa using attr_itemStart ha _, ?_⟩
    have := pItem_other ha (enc_iff.mp ht) hv r (c := '>') (mk := .greaterOrEqual) (by decide)
      (by decide) (by decide) (fun s => rfl)
    simpa using this
  | lessOrEqual a t v ha hv ht =>
    refine ⟨rfl, by simpa using attr_itemStart ha _, ?_⟩
    have := pItem_other ha (enc_iff.mp ht) hv r (c := '<') (mk := .lessOrEqual) (by decide)
      (by decide) (by decide) (fun s => rfl)
    simpa using this
  | approx a t v ha hv ht =>
    refine ⟨rfl, by simpa using attr_itemStart ha _, ?_⟩
    have := pItem_other ha (enc_iff.mp ht) hv r (c := '~') (mk := .approx) (by decide)
      (by decide) (by decide) (fun s => rfl)
    simpa using this
  | present a ha =>
    refine ⟨rfl, by simpa using attr_itemStart ha _, ?_⟩
    have := pItem_present ha r
    simpa using this
  | substrings a ti tf i f as ha hi hf has hne =>
    refine ⟨rfl, by simpa using attr_itemStart ha _, ?_⟩
    have hm : (as.map Prod.swap).map Prod.fst = as.map Prod.snd := by simp [Function.comp_def]
    have hm' : starred ((as.map Prod.swap).map Prod.snd) = (as.map fun p => p.1 ++ ['*']).flatten := by
      simp [Function.comp_def, starred, List.flatMap]
    have := pItem_substrings ha (vts := as.map Prod.swap) (part_enc hi).1 (part_enc hi).2 (part_enc hf).1 (part_enc hf).2
      (by
        intro p hp
        obtain ⟨v, hv, rfl⟩ := List.mem_map.mp hp
        exact ⟨enc_iff.mp (has v hv).2, (has v hv).1⟩)
      (by rw [hm]; exact hne) r
    rw [hm, hm'] at this
    simpa using this
  | extensible a t v d ro ha hr hv ht =>
    have key := pExtAttr_spec ha (enc_iff.mp ht) hv ro d (by
      intro x hx
      refine ⟨hr x hx, ?_⟩
      intro hd
      cases hx
      rw [ClearRules] at hc
      rcases hc with hc | hc
      · rw [hd] at hc; cases hc
      · exact hc) r
    refine ⟨rfl, by simpa using attr_itemStart ha _, ?_⟩
    apply pItem_extensible ha
    · cases d
      · cases ro
        · exact ⟨'=' :: (t ++ ')' :: r), by simp [flagText, ruleText]⟩
        · rename_i x; exact ⟨x ++ ':' :: '=' :: (t ++ ')' :: r), by simp [flagText, ruleText]⟩
      · exact ⟨'d' :: 'n' :: (ruleText ro ++ ':' :: '=' :: (t ++ ')' :: r)), by simp [flagText]⟩
    · rw [← key]
      cases d <;> cases ro <;> simp [flagText, ruleText, dnText]
  | rule x t v d hr hv ht =>
    have key := pExtNoAttr_spec (enc_iff.mp ht) hv x d ⟨hr, by
      intro hd
      rw [ClearRules] at hc
      rcases hc with hc | hc
      · rw [hd] at hc; cases hc
      · exact hc⟩ r
    refine ⟨rfl, by cases d <;> exact ⟨_, _, rfl, .inr rfl⟩, ?_⟩
    apply pItem_noattr
    · cases d <;> exact ⟨_, rfl⟩
    · rw [← key]
      cases d <;> simp [flagText, ruleText, dnText]

/-- The list parser on the texts of filters that are read one by one. -/
theorem lists_parse (ps : List (Str × Filter)) (h : ∀ p ∈ ps, 2 * p.1.length ≥ need p.2 + 1 ∧
      ∀ n r, need p.2 ≤ n → pFilter n (p.1 ++ r) = some (p.2, r)) :
    2 * (ps.map Prod.fst).flatten.length ≥ needs (ps.map Prod.snd) ∧ ∀ n r, needs (ps.map Prod.snd) ≤ n →
      (∀ k, pFilter k r = none) → pFilters n ((ps.map Prod.fst).flatten ++ r) = (ps.map Prod.snd, r) := by
  induction ps with
  | nil =>
    refine ⟨by simp [needs], ?_⟩
    intro n r _ hr
    cases n with
    | zero => rfl
    | succ n =>
      simp only [List.map_nil, List.flatten_nil, List.nil_append]
      rw [pFilters, hr]
  | cons p ps ih =>
    obtain ⟨h1, h2⟩ := h p (by simp)
    obtain ⟨i1, i2⟩ := ih (fun q hq => h q (by simp [hq]))
    refine ⟨by simp [needs] at i1 ⊢; omega, ?_⟩
    intro n r hn hr
    simp only [List.map_cons] at hn ⊢
    rw [needs] at hn
    obtain ⟨m, rfl⟩ : ∃ m, n = m + 1 := ⟨n - 1, by omega⟩
    rw [pFilters, List.flatten_cons, List.append_assoc, h2 m _ (by omega)]
    simp only
    rw [i2 m r (by omega) hr]

theorem denotes_parse {t : Str} {f : Filter} (h : Denotes t f) (hc : ClearRules f) :
    2 * t.length ≥ need f + 1 ∧ ∀ n r, need f ≤ n → pFilter n (t ++ r) = some (f, r) := by
  induction h with
  | and ps hne hps ih =>
    obtain ⟨h1, h2⟩ := lists_parse ps (fun p hp => ih p hp (by
      rw [ClearRules] at hc; exact hc p.2 (List.mem_map_of_mem hp)))
    refine ⟨by simp [need] at h1 ⊢; omega, ?_⟩
    intro n r hn
    rw [need] at hn
    obtain ⟨m, rfl⟩ : ∃ m, n = m + 3 := ⟨n - 3, by omega⟩
    have hp := h2 m (')' :: r) (by omega) (fun k => pFilter_open k _ _ (by decide))
    have e : "(&".toList ++ (ps.map Prod.fst).flatten ++ ")".toList ++ r =
        '(' :: '&' :: ((ps.map Prod.fst).flatten ++ ')' :: r) := by simp
    have hne' : ps.map Prod.snd ≠ [] := by simpa using hne
    rw [e, pFilter]
    simp only [pLit_one, pComp, pAnd, hp]
  | or ps hne hps ih =>
    obtain ⟨h1, h2⟩ := lists_parse ps (fun p hp => ih p hp (by
      rw [ClearRules] at hc; exact hc p.2 (List.mem_map_of_mem hp)))
    refine ⟨by simp [need] at h1 ⊢; omega, ?_⟩
    intro n r hn
    rw [need] at hn
    obtain ⟨m, rfl⟩ : ∃ m, n = m + 3 := ⟨n - 3, by omega⟩
    have hp := h2 m (')' :: r) (by omega) (fun k => pFilter_open k _ _ (by decide))
    have e : "(|".toList ++ (ps.map Prod.fst).flatten ++ ")".toList ++ r =
        '(' :: '|' :: ((ps.map Prod.fst).flatten ++ ')' :: r) := by simp
    have hne' : ps.map Prod.snd ≠ [] := by simpa using hne
    rw [e, pFilter]
    simp only [pLit_one, pComp, pAnd, pOr, hp, pLit_ne (c := '&') (d := '|') (by decide)]
  | not t f _ ih =>
    obtain ⟨h1, h2⟩ := ih (by rw [ClearRules] at hc; exact hc)
    refine ⟨by simp [need]; omega, ?_⟩
    intro n r hn
    rw [need] at hn
    obtain ⟨m, rfl⟩ : ∃ m, n = m + 3 := ⟨n - 3, by omega⟩
    have hp := h2 m (')' :: r) (by omega)
    have e : "(!".toList ++ t ++ ")".toList ++ r = '(' :: '!' :: (t ++ ')' :: r) := by simp
    rw [e, pFilter]
    simp only [pLit_one, pComp, pAnd, pOr, pNot, hp, pLit_ne (c := '&') (d := '!') (by decide),
      pLit_ne (c := '|') (d := '!') (by decide)]
  | item t f ht =>
    refine ⟨by have := (item_parse ht hc []).1; simp; omega, ?_⟩
    intro n r hn
    obtain ⟨h1, h2, h3⟩ := item_parse ht hc r
    obtain ⟨m, rfl⟩ : ∃ m, n = m + 2 := ⟨n - 2, by omega⟩
    have := pFilter_item (n := m) h2 h3
    simpa using this

end Verif.FilterText
