import Verif.Model.Dn
import Mathlib.Tactic.Common
import Mathlib.Data.List.Forall2
import Mathlib.Data.List.Induction
/-
C60  The domain of a DN is read from its trailing DC components.
-/
namespace Verif.C60
open Verif.Dn

/-- The RDN is a single `DC` component with this value. -/
def IsDC (upper : Str → Str) (r : Rdn) (v : Str) : Prop := ∃ t, r = [⟨t, v⟩] ∧ upper t = ['D', 'C']

theorem joinWith_intercalate (sep : Str) (l : List Str) : joinWith sep l = sep.intercalate l := by
  induction l with
  | nil => rfl
  | cons x l ih =>
    cases l with
    | nil => simp [joinWith, List.intercalate]
    | cons y l => rw [joinWith, ih]; simp [List.intercalate]; simp

theorem domainLoop_dc (upper : Str → Str) (rs : List Rdn) (vs : List Str) (h : List.Forall₂ (IsDC upper) rs vs) (rest : List Rdn) (acc : List Str) :
    domainLoop upper (rs ++ rest) acc = domainLoop upper rest (vs.reverse ++ acc) := by
  induction h generalizing acc with
  | nil => rfl
  | cons h _ ih =>
    obtain ⟨t, rfl, ht⟩ := h
    simp only [List.cons_append, domainLoop, if_pos ht, ih]
    simp

theorem domainLoop_stop (upper : Str → Str) (rs : List Rdn) (acc : List Str) (h : ∀ r v, rs.head? = some r → ¬ IsDC upper r v) :
    domainLoop upper rs acc = acc := by
  cases rs with
  | nil => rfl
  | cons r rs =>
    unfold domainLoop
    split
    · rename_i t v _ e
      cases e
      rw [if_neg fun c => h _ v rfl ⟨t, rfl, c⟩]
    · rfl

/-- If the DN ends in components `DC=v1, ..., DC=vn` and the component before them, if any, is none, the domain is
`v1. ... .vn`, and there is none if `n = 0`. -/
theorem domain_spec (upper : Str → Str) (pre suf : Dn) (vs : List Str) (hs : List.Forall₂ (IsDC upper) suf vs)
    (hp : ∀ r v, pre.getLast? = some r → ¬ IsDC upper r v) :
    Dn.getDomainName upper (pre ++ suf) = if vs = [] then none else some (['.'].intercalate vs) := by
  have hrev : List.Forall₂ (IsDC upper) suf.reverse vs.reverse := List.rel_reverse hs
  unfold Dn.getDomainName
  rw [List.reverse_append, domainLoop_dc upper _ _ hrev, domainLoop_stop upper _ _ (by intro r v; rw [List.head?_reverse]; exact hp r v)]
  simp only [List.reverse_reverse, List.append_nil]
  cases vs with
  | nil => rfl
  | cons v vs => simp only [joinWith_intercalate]; simp

/-- Every DN is of this form. -/
theorem domain_split (upper : Str → Str) (d : Dn) : ∃ (pre suf : Dn) (vs : List Str), d = pre ++ suf ∧
    List.Forall₂ (IsDC upper) suf vs ∧ ∀ r v, pre.getLast? = some r → ¬ IsDC upper r v := by
  induction d using List.reverseRecOn with
  | nil => exact ⟨[], [], [], rfl, .nil, by simp⟩
  | append_singleton d r ih =>
    by_cases h : ∃ v, IsDC upper r v
    · obtain ⟨v, hv⟩ := h
      obtain ⟨pre, suf, vs, rfl, h1, h2⟩ := ih
      refine ⟨pre, suf ++ [r], vs ++ [v], by simp, ?_, h2⟩
      exact List.rel_append h1 (.cons hv .nil)
    · refine ⟨d ++ [r], [], [], by simp, .nil, ?_⟩
      intro r' v e
      simp at e
      subst e
      exact fun c => h ⟨v, c⟩

/-- An upper-casing that is not the trivial one, and a DN with a domain. -/
example : Dn.getDomainName (fun s => s.map Char.toUpper) [[⟨['c', 'n'], ['a']⟩], [⟨['d', 'c'], ['x']⟩], [⟨['D', 'c'], ['y']⟩]] = some ['x', '.', 'y'] := by
  decide +kernel

end Verif.C60
