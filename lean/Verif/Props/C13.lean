import Verif.Lemmas.DnOrder
import Verif.Props.C12
/-
C13  DN ordering is a strict total order consistent with equality.

Full statement: `<` is irreflexive and transitive, and exactly one of `a < b`, `a == b`, `b < a` holds.
Transitivity is false (`not_transitive`): equality ignores case and `<` does not, so `v=A` < `v=B` < `v=a` while
`v=A` == `v=a`.
Proved: irreflexivity and trichotomy for all DNs; transitivity for DNs in canonical case (`transitive_partial`).
-/
namespace Verif.C13
open Verif.Dn Verif.Spec

theorem irreflexive (U : Unicode) (a : Dn) : Dn.lt U a a = false :=
  tupleLt_of_eq a a ((Dn.trich U).refl a)

/-- Exactly one of `a < b`, `a == b`, `b < a` holds. -/
theorem trichotomy (U : Unicode) (a b : Dn) :
    (Dn.lt U a b = true ∧ Dn.eq U a b = false ∧ Dn.lt U b a = false) ∨
    (Dn.lt U a b = false ∧ Dn.eq U a b = true ∧ Dn.lt U b a = false) ∨
    (Dn.lt U a b = false ∧ Dn.eq U a b = false ∧ Dn.lt U b a = true) := by
  cases h : Dn.eq U a b with
  | true =>
    have h1 : Dn.lt U a b = false := tupleLt_of_eq a b h
    have h2 : Dn.lt U b a = false := tupleLt_of_eq b a (by rw [(Dn.trich U).symm] at h; exact h)
    simp [h1, h2]
  | false =>
    have := (Dn.trich U).total a b h
    cases h2 : Dn.lt U b a <;> simp [this, h2]

/-- The full statement of transitivity. -/
def Transitive (U : Unicode) : Prop :=
  ∀ a b c : Dn, Dn.lt U a b = true → Dn.lt U b c = true → Dn.lt U a c = true

/-- Transitivity fails as soon as `A` and `a` have the same lower case and `B` another one. -/
theorem not_transitive (U : Unicode) (h1 : U.lower ['A'] = U.lower ['a']) (h2 : U.lower ['B'] ≠ U.lower ['a']) :
    ¬ Transitive U := by
  intro H
  have hAB : Dn.lt U [[⟨['v'], ['A']⟩]] [[⟨['v'], ['B']⟩]] = true := by
    simp [Dn.lt, Rdn.lt, tupleLt, Rdn.eq, tupleEq, Ava.eq, h1, Ne.symm h2, Ava.lt, strLt]
  have hBa : Dn.lt U [[⟨['v'], ['B']⟩]] [[⟨['v'], ['a']⟩]] = true := by
    simp [Dn.lt, Rdn.lt, tupleLt, Rdn.eq, tupleEq, Ava.eq, h2, Ava.lt, strLt]
  have := H _ _ _ hAB hBa
  simp [Dn.lt, tupleLt, Rdn.eq, tupleEq, Ava.eq, h1] at this

example : asciiTables.lower ['A'] = asciiTables.lower ['a'] ∧ asciiTables.lower ['B'] ≠ asciiTables.lower ['a'] := by
  decide

/-- Among DNs in canonical case the order is transitive. -/
theorem transitive_partial (U : Unicode) (a b c : Dn) (ha : CanonicalCase U a) (hb : CanonicalCase U b)
    (hc : CanonicalCase U c) (h : Dn.lt U a b = true) (h' : Dn.lt U b c = true) : Dn.lt U a c = true := by
  let P : Ava → Prop := fun x => U.lower x.attributeType = x.attributeType ∧ U.lower x.value = x.value
  have heqA : ∀ x y, P x → P y → (Ava.eq U x y = true ↔ x = y) := by
    intro x y hx hy
    rw [Ava.eq_iff, C12.foldAva_canonical hx, C12.foldAva_canonical hy]
    cases x; cases y; simp
  have hirR : ∀ r : Rdn, Rdn.lt U r r = false := fun r => tupleLt_of_eq r r ((Ava.trich U).tuple.refl r)
  have htrR : ∀ r s t : Rdn, (∀ x ∈ r, P x) → (∀ x ∈ s, P x) → (∀ x ∈ t, P x) → Rdn.lt U r s = true →
      Rdn.lt U s t = true → Rdn.lt U r t = true :=
    fun r s t hr hs ht => tupleLt_trans (lt := Ava.lt) heqA (fun _ _ _ _ _ _ => Ava.lt_trans) (fun x _ => Ava.lt_irrefl x) r s t hr hs ht
  refine tupleLt_trans (P := fun r : Rdn => ∀ x ∈ r, P x) ?_ htrR (fun r _ => hirR r) a b c ha hb hc h h'
  intro r s hr hs
  rw [Rdn.eq_iff]
  exact ⟨C12.foldRdn_inj hr hs, fun e => by rw [e]⟩

def dn1 : Dn := [[⟨"cn".toList, "a".toList⟩], [⟨"dc".toList, "x".toList⟩]]
def dn2 : Dn := [[⟨"cn".toList, "b".toList⟩], [⟨"dc".toList, "w".toList⟩]]
def dn3 : Dn := [[⟨"cn".toList, "b".toList⟩, ⟨"sn".toList, "b".toList⟩]]
example : CanonicalCase asciiTables dn1 ∧ CanonicalCase asciiTables dn2 ∧ CanonicalCase asciiTables dn3 ∧
    Dn.lt asciiTables dn1 dn2 = true ∧ Dn.lt asciiTables dn2 dn3 = true := by
  unfold CanonicalCase; decide +kernel

end Verif.C13
