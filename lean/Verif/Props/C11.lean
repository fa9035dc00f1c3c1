import Verif.Lemmas.DnOrder
/-
C11  DN containment is the suffix order.
-/
namespace Verif.C11
open Verif.Dn Verif.Spec

/-- `a.contains(b)` holds exactly when `a` is, up to case, a trailing part of `b`. -/
theorem contains_iff_suffix (U : Unicode) (a b : Dn) : Dn.contains U a b = true ↔ foldDn U a <:+ foldDn U b :=
  contains_iff U a b

theorem contains_refl (U : Unicode) (a : Dn) : Dn.contains U a a = true :=
  (contains_iff U a a).mpr List.suffix_rfl

theorem contains_trans (U : Unicode) (a b c : Dn) (h : Dn.contains U a b = true) (h' : Dn.contains U b c = true) :
    Dn.contains U a c = true :=
  (contains_iff U a c).mpr (((contains_iff U a b).mp h).trans ((contains_iff U b c).mp h'))

/-- Two DNs that contain each other compare equal. -/
theorem contains_antisymm (U : Unicode) (a b : Dn) (h : Dn.contains U a b = true) (h' : Dn.contains U b a = true) :
    Dn.eq U a b = true := by
  have h1 := (contains_iff U a b).mp h
  have h2 := (contains_iff U b a).mp h'
  exact (Dn.eq_iff U a b).mpr (h1.eq_of_length (Nat.le_antisymm h1.length_le h2.length_le))

/-- A DN lies in the subtree of its parent, and of every ancestor. -/
theorem up_contains (U : Unicode) (a : Dn) : Dn.contains U a.up a = true := by
  rw [contains_iff]
  exact (List.drop_suffix 1 a).map _

/-- A DN other than the root does not contain its parent. -/
theorem not_contains_up (U : Unicode) (a : Dn) (h : a ≠ []) : Dn.contains U a a.up = false := by
  cases hc : Dn.contains U a a.up with
  | false => rfl
  | true =>
    have := ((contains_iff U _ _).mp hc).length_le
    cases a with
    | nil => exact absurd rfl h
    | cons r a => simp [foldDn, Dn.up] at this; omega

/-- Equal DNs are interchangeable in `contains`. -/
theorem contains_congr (U : Unicode) (a a' b b' : Dn) (h : Dn.eq U a a' = true) (h' : Dn.eq U b b' = true) :
    Dn.contains U a b = Dn.contains U a' b' := by
  rw [Bool.eq_iff_iff, contains_iff, contains_iff, (Dn.eq_iff U a a').mp h, (Dn.eq_iff U b b').mp h']

/-- Asking about a text is asking about the DN it parses to. -/
theorem contains_text (U : Unicode) (s t : Str) (a : Dn) (ha : Dn.parse U s = .ok a) :
    Dn.containsText U a t = (Dn.parse U t).map (Dn.contains U a) := by
  unfold Dn.containsText
  by_cases h : Dn.eqText a t = true
  · rw [if_pos h]
    have : a.text = t := by simpa [Dn.eqText] using h
    subst this
    rw [Dn.parse_text U a (Dn.parse_good ha)]
    show Except.ok true = Except.ok _
    rw [contains_refl]
  · rw [if_neg h]
    cases hb : Dn.parse U t with
    | error e => rfl
    | ok b =>
      show Except.ok _ = Except.ok _
      congr 1
      rw [Bool.eq_iff_iff, contains_iff, containsLoop_iff, List.map_reverse, List.map_reverse, List.reverse_prefix]
      rfl

def people : Dn := [[⟨"ou".toList, "People".toList⟩], [⟨"dc".toList, "x".toList⟩]]
def alice : Dn := [[⟨"cn".toList, "Alice".toList⟩], [⟨"OU".toList, "people".toList⟩], [⟨"dc".toList, "X".toList⟩]]

-- contains_trans and contains_antisymm on DNs that differ in case, contains_congr, contains_text, not_contains_up
example : Dn.contains asciiTables people alice = true ∧ Dn.contains asciiTables alice people = false := by decide +kernel
example : Dn.contains asciiTables people alice.up = true ∧ Dn.contains asciiTables alice.up people = true ∧
    people ≠ alice.up := by decide +kernel
example : Dn.eq asciiTables people alice.up = true := by decide +kernel
example : Dn.parse asciiTables "ou=People, dc=x".toList = .ok people := by decide +kernel
example : alice ≠ [] := by decide

end Verif.C11
