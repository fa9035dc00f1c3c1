import Verif.Lemmas.DnOrder
/-
C12  Equal DNs hash equally.

Full statement: whatever hash function Python uses for the underlying strings and tuples, DNs that compare equal have
equal hashes.  It is false, since comparison ignores case and hashing does not (`equal_dns_hash_differently`).
Proved: DNs, RDNs and pairs in canonical case that are equal hash equally (`equal_hash_partial`), and a complete
account of when equal DNs hash the same key: only when they are spelled identically (`same_key_iff`).
Missing: nothing but the case refuted.
-/
namespace Verif.C12
open Verif.Dn Verif.Spec

/-- The full statement for DNs, for Python's string hash `h`. -/
def EqualHash (U : Unicode) {α : Type} (h : Str → α) : Prop :=
  ∀ a b : Dn, Dn.eq U a b = true → h a.hashKey = h b.hashKey

/-- It fails for every hash function that tells the strings `a=b` and `A=b` apart. -/
theorem equal_dns_hash_differently (U : Unicode) {α : Type} (h : Str → α) (hU : U.lower ['A'] = U.lower ['a'])
    (hh : h "A=b".toList ≠ h "a=b".toList) : ¬ EqualHash U h := by
  intro H
  have := H [[⟨['A'], ['b']⟩]] [[⟨['a'], ['b']⟩]] ((Dn.eq_iff U _ _).mpr (by simp [foldDn, foldRdn, foldAva, hU]))
  exact hh this

example : asciiTables.lower ['A'] = asciiTables.lower ['a'] ∧
    (id : Str → Str) "A=b".toList ≠ id "a=b".toList := by decide

/-- The same for RDNs and pairs, where the hashed key is the tuple of strings. -/
theorem equal_pairs_hash_differently (U : Unicode) (hU : U.lower ['A'] = U.lower ['a']) :
    (∃ a b : Rdn, Rdn.eq U a b = true ∧ a.hashKey ≠ b.hashKey) ∧
    (∃ a b : Ava, Ava.eq U a b = true ∧ a.hashKey ≠ b.hashKey) := by
  refine ⟨⟨[⟨['A'], ['b']⟩], [⟨['a'], ['b']⟩], (Rdn.eq_iff U _ _).mpr (by simp [foldRdn, foldAva, hU]), by decide⟩,
    ⟨['A'], ['b']⟩, ⟨['a'], ['b']⟩, (Ava.eq_iff U _ _).mpr (by simp [foldAva, hU]), by decide⟩

theorem foldAva_canonical {U : Unicode} {a : Ava} (h : U.lower a.attributeType = a.attributeType ∧ U.lower a.value = a.value) :
    foldAva U a = (a.attributeType, a.value) := by simp [foldAva, h.1, h.2]

theorem foldRdn_inj {U : Unicode} {a b : Rdn}
    (ha : ∀ x ∈ a, U.lower x.attributeType = x.attributeType ∧ U.lower x.value = x.value)
    (hb : ∀ x ∈ b, U.lower x.attributeType = x.attributeType ∧ U.lower x.value = x.value)
    (h : foldRdn U a = foldRdn U b) : a = b := by
  induction a generalizing b with
  | nil => cases b with
    | nil => rfl
    | cons y b => cases h
  | cons x a ih => cases b with
    | nil => cases h
    | cons y b =>
      simp only [foldRdn, List.map_cons, List.cons.injEq] at h
      rw [foldAva_canonical (ha x (by simp)), foldAva_canonical (hb y (by simp))] at h
      have hxy : x = y := by cases x; cases y; simp_all
      rw [hxy, ih (fun z hz => ha z (by simp [hz])) (fun z hz => hb z (by simp [hz])) h.2]

theorem foldDn_inj {U : Unicode} {a b : Dn} (ha : CanonicalCase U a) (hb : CanonicalCase U b)
    (h : foldDn U a = foldDn U b) : a = b := by
  induction a generalizing b with
  | nil => cases b with
    | nil => rfl
    | cons y b => cases h
  | cons x a ih => cases b with
    | nil => cases h
    | cons y b =>
      simp only [foldDn, List.map_cons, List.cons.injEq] at h
      rw [foldRdn_inj (ha x (by simp)) (hb y (by simp)) h.1,
        ih (fun z hz => ha z (by simp [hz])) (fun z hz => hb z (by simp [hz])) h.2]

/-- Equal DNs in canonical case hash equally. -/
theorem equal_hash_partial (U : Unicode) {α : Type} (h : Str → α) (a b : Dn) (ha : CanonicalCase U a)
    (hb : CanonicalCase U b) (heq : Dn.eq U a b = true) : h a.hashKey = h b.hashKey := by
  rw [foldDn_inj ha hb ((Dn.eq_iff U a b).mp heq)]

def lowerDn : Dn := [[⟨"cn".toList, "alice".toList⟩], [⟨"dc".toList, "x".toList⟩]]
example : CanonicalCase asciiTables lowerDn ∧ Dn.eq asciiTables lowerDn lowerDn = true := by
  unfold CanonicalCase; decide +kernel

/-- For parsed DNs that compare equal, the hashed keys agree exactly when the DNs are spelled alike. -/
theorem same_key_iff (U : Unicode) (s t : Str) (a b : Dn) (ha : Dn.parse U s = .ok a) (hb : Dn.parse U t = .ok b) :
    a.hashKey = b.hashKey ↔ a = b := by
  constructor
  · intro h
    have h1 := Dn.parse_text U a (Dn.parse_good ha)
    have h2 := Dn.parse_text U b (Dn.parse_good hb)
    unfold Dn.hashKey at h
    rw [h, h2] at h1; cases h1; rfl
  · rintro rfl; rfl

example : Dn.parse asciiTables "dc=X".toList = .ok [[⟨"dc".toList, "X".toList⟩]] ∧
    Dn.parse asciiTables "DC=x".toList = .ok [[⟨"DC".toList, "x".toList⟩]] := by decide +kernel

end Verif.C12
