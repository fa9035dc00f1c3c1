import Verif.Lemmas.Dn
import Verif.Spec.Dn
/-
Helper lemmas about DN comparison.
-/
namespace Verif.Dn
open Verif.Spec

theorem tupleEq_iff {α β : Type} {eq : α → α → Bool} {f : α → β} (h : ∀ a b, eq a b = true ↔ f a = f b) (l m : List α) :
    tupleEq eq l m = true ↔ l.map f = m.map f := by
  induction l generalizing m with
  | nil => cases m <;> simp [tupleEq]
  | cons a l ih => cases m <;> simp [tupleEq, h, ih]

theorem Ava.eq_iff (U : Unicode) (a b : Ava) : Ava.eq U a b = true ↔ foldAva U a = foldAva U b := by
  simp [Ava.eq, foldAva]

theorem Rdn.eq_iff (U : Unicode) (a b : Rdn) : Rdn.eq U a b = true ↔ foldRdn U a = foldRdn U b :=
  tupleEq_iff (Ava.eq_iff U) a b

theorem Dn.eq_iff (U : Unicode) (a b : Dn) : Dn.eq U a b = true ↔ foldDn U a = foldDn U b :=
  tupleEq_iff (Rdn.eq_iff U) a b

theorem containsLoop_iff (U : Unicode) (a b : List Rdn) :
    containsLoop U a b = true ↔ a.map (foldRdn U) <+: b.map (foldRdn U) := by
  induction a generalizing b with
  | nil => cases b <;> simp [containsLoop]
  | cons m a ih =>
    cases b with
    | nil => simp [containsLoop]
    | cons i b =>
      rw [containsLoop, List.map_cons, List.map_cons, List.cons_prefix_cons]
      by_cases h : Rdn.eq U m i = true
      · rw [if_pos h, ih]
        have := (Rdn.eq_iff U m i).mp h
        simp [this]
      · rw [if_neg h]
        have : foldRdn U m ≠ foldRdn U i := fun e => h ((Rdn.eq_iff U m i).mpr e)
        simp [this]

theorem contains_iff (U : Unicode) (a b : Dn) : Dn.contains U a b = true ↔ foldDn U a <:+ foldDn U b := by
  unfold Dn.contains
  by_cases h : Dn.eq U a b = true
  · rw [if_pos h]
    have := (Dn.eq_iff U a b).mp h
    simp [this]
  · rw [if_neg h, containsLoop_iff, List.map_reverse, List.map_reverse, List.reverse_prefix]
    rfl

/-! ### Order -/

theorem strLt_irrefl (s : Str) : strLt s s = false := by
  induction s with
  | nil => rfl
  | cons c s ih => simp [strLt, ih]

theorem strLt_total {s t : Str} (h : s ≠ t) : strLt s t = !strLt t s := by
  induction s generalizing t with
  | nil => cases t with
    | nil => exact absurd rfl h
    | cons d t => rfl
  | cons c s ih =>
    cases t with
    | nil => rfl
    | cons d t =>
      simp only [strLt]
      by_cases hc : c = d
      · subst hc
        simp only [↓reduceIte]
        exact ih (fun e => h (by rw [e]))
      · have hn : c.toNat ≠ d.toNat := fun e => hc (Char.toNat_inj.mp e)
        rw [if_neg hc, if_neg (Ne.symm hc)]
        rw [← decide_not, decide_eq_decide]; omega

theorem strLt_trans {s t u : Str} (h : strLt s t = true) (h' : strLt t u = true) : strLt s u = true := by
  induction s generalizing t u with
  | nil =>
    cases t with
    | nil => cases h
    | cons d t => cases u with
      | nil => cases h'
      | cons e u => rfl
  | cons c s ih =>
    cases t with
    | nil => cases h
    | cons d t =>
      cases u with
      | nil => cases h'
      | cons e u =>
        simp only [strLt] at h h' ⊢
        by_cases hcd : c = d
        · subst hcd
          by_cases hce : c = e
          · subst hce
            simp only [↓reduceIte] at *
            exact ih h h'
          · rw [if_neg hce] at h' ⊢; exact h'
        · rw [if_neg hcd] at h
          by_cases hde : d = e
          · subst hde; rw [if_neg hcd]; exact h
          · rw [if_neg hde] at h'
            have : c.toNat < e.toNat := by simp only [decide_eq_true_eq] at h h'; omega
            have hce : c ≠ e := by rintro rfl; omega
            rw [if_neg hce]; simpa using this

theorem Ava.lt_irrefl (a : Ava) : Ava.lt a a = false := by simp [Ava.lt, strLt_irrefl]

theorem Ava.lt_total {a b : Ava} (h : a ≠ b) : Ava.lt a b = !Ava.lt b a := by
  unfold Ava.lt
  by_cases ht : a.attributeType = b.attributeType
  · rw [if_neg (by simp [ht]), if_neg (by simp [ht])]
    apply strLt_total
    intro hv
    exact h (by cases a; cases b; simp_all)
  · rw [if_pos ht, if_pos (Ne.symm ht)]
    exact strLt_total ht

theorem Ava.lt_trans {a b c : Ava} (h : Ava.lt a b = true) (h' : Ava.lt b c = true) : Ava.lt a c = true := by
  unfold Ava.lt at *
  by_cases h1 : a.attributeType = b.attributeType
  · rw [if_neg (by simp [h1])] at h
    by_cases h2 : b.attributeType = c.attributeType
    · rw [if_neg (by simp [h2])] at h'
      rw [if_neg (by simp [h1, h2])]
      exact strLt_trans h h'
    · rw [if_pos h2] at h'
      rw [if_pos (by rw [h1]; exact h2), h1]; exact h'
  · rw [if_pos h1] at h
    by_cases h2 : b.attributeType = c.attributeType
    · rw [← h2, if_pos h1]; exact h
    · rw [if_pos h2] at h'
      have := strLt_trans h h'
      rw [if_pos]
      · exact this
      · intro e; rw [e, strLt_irrefl] at this; cases this

/-- An order test that, away from equality, holds in exactly one direction. -/
structure Trich {α : Type} (eq lt : α → α → Bool) : Prop where
  refl : ∀ a, eq a a = true
  symm : ∀ a b, eq a b = eq b a
  total : ∀ a b, eq a b = false → lt a b = !lt b a

theorem Trich.tuple {α : Type} {eq lt : α → α → Bool} (h : Trich eq lt) : Trich (tupleEq eq) (tupleLt eq lt) := by
  constructor
  · intro a
    induction a with
    | nil => rfl
    | cons x a ih => simp [tupleEq, h.refl, ih]
  · intro a
    induction a with
    | nil => intro b; cases b <;> rfl
    | cons x a ih => intro b; cases b with
      | nil => rfl
      | cons y b => simp [tupleEq, h.symm x y, ih b]
  · intro a
    induction a with
    | nil => intro b hb; cases b with
      | nil => cases hb
      | cons y b => rfl
    | cons x a ih => intro b hb; cases b with
      | nil => rfl
      | cons y b =>
        simp only [tupleLt]
        rw [h.symm y x]
        cases hxy : eq x y with
        | true =>
          simp only [↓reduceIte]
          apply ih
          simpa [tupleEq, hxy] using hb
        | false => simpa using h.total x y hxy

theorem tupleLt_of_eq {α : Type} {eq lt : α → α → Bool} (a b : List α) (h : tupleEq eq a b = true) :
    tupleLt eq lt a b = false := by
  induction a generalizing b with
  | nil => cases b with
    | nil => rfl
    | cons y b => cases h
  | cons x a ih => cases b with
    | nil => cases h
    | cons y b =>
      simp only [tupleEq, Bool.and_eq_true] at h
      simp [tupleLt, h.1, ih b h.2]

theorem Ava.trich (U : Unicode) : Trich (Ava.eq U) Ava.lt := by
  constructor
  · intro a; simp [Ava.eq]
  · intro a b; rw [Bool.eq_iff_iff, Ava.eq_iff, Ava.eq_iff]; exact eq_comm
  · intro a b h
    apply Ava.lt_total
    rintro rfl
    simp [Ava.eq] at h

theorem Dn.trich (U : Unicode) : Trich (Dn.eq U) (Dn.lt U) := (Ava.trich U).tuple.tuple

/-- Transitivity of the tuple order among tuples whose elements satisfy `P`, when there `eq` is equality. -/
theorem tupleLt_trans {α : Type} {eq lt : α → α → Bool} {P : α → Prop}
    (heq : ∀ a b, P a → P b → (eq a b = true ↔ a = b))
    (htr : ∀ a b c, P a → P b → P c → lt a b = true → lt b c = true → lt a c = true)
    (hir : ∀ a, P a → lt a a = false)
    (l m n : List α) (hl : ∀ a ∈ l, P a) (hm : ∀ a ∈ m, P a) (hn : ∀ a ∈ n, P a)
    (h : tupleLt eq lt l m = true) (h' : tupleLt eq lt m n = true) : tupleLt eq lt l n = true := by
  induction l generalizing m n with
  | nil =>
    cases m with
    | nil => cases h
    | cons d t => cases n with
      | nil => cases h'
      | cons e u => rfl
  | cons a l ih =>
    cases m with
    | nil => cases h
    | cons b m =>
      cases n with
      | nil => cases h'
      | cons c n =>
        have pa := hl a (by simp)
        have pb := hm b (by simp)
        have pc := hn c (by simp)
        simp only [tupleLt] at h h' ⊢
        by_cases hab : eq a b = true
        · rw [if_pos hab] at h
          have := (heq a b pa pb).mp hab
          subst this
          by_cases hac : eq a c = true
          · rw [if_pos hac] at h' ⊢
            exact ih m n (fun x hx => hl x (by simp [hx])) (fun x hx => hm x (by simp [hx]))
              (fun x hx => hn x (by simp [hx])) h h'
          · rw [if_neg hac] at h' ⊢; exact h'
        · rw [if_neg hab] at h
          by_cases hbc : eq b c = true
          · have := (heq b c pb pc).mp hbc
            subst this
            rw [if_neg hab]; exact h
          · rw [if_neg hbc] at h'
            have hac := htr a b c pa pb pc h h'
            rw [if_neg]
            · exact hac
            · intro e
              have := (heq a c pa pc).mp e
              subst this
              rw [hir a pa] at hac; cases hac

end Verif.Dn
