import Verif.Lemmas.Dn
/-
C10  A DN built from components round-trips through its text form.
-/
namespace Verif.C10
open Verif.Dn

/-- A DN built from pairs, attribute types without `=` and at least one pair in each RDN, prints to a text that parses
back to the same pairs. -/
theorem components_roundtrip (U : Unicode) (d : Dn) (htypes : ∀ r ∈ d, ∀ a ∈ r, '=' ∉ a.attributeType)
    (hrdns : ∀ r ∈ d, r ≠ []) : Dn.parse U d.text = .ok d :=
  Dn.parse_text U d ⟨htypes, by rintro rfl; exact hrdns [] (by simp) rfl⟩

def awkward : Dn :=
  [[⟨"cn".toList, " a,b+\"c\"\\ \u0007é\n #".toList⟩, ⟨"x y".toList, "".toList⟩], [⟨"".toList, "#=;<>\\".toList⟩]]

example : (∀ r ∈ awkward, ∀ a ∈ r, '=' ∉ a.attributeType) ∧ (∀ r ∈ awkward, r ≠ []) := by decide +kernel
example : awkward.text = "cn=\\ a\\,b\\+\\\"c\\\"\\\\ \\07é\\0A \\#+x y=,=\\#\\=\\;\\<\\>\\\\".toList := by decide +kernel

/-- The same for a single RDN. -/
theorem rdn_roundtrip (U : Unicode) (r : Rdn) (htypes : ∀ a ∈ r, '=' ∉ a.attributeType) :
    Rdn.parse U r.text = .ok r :=
  Rdn.parse_text U r htypes

example : ∀ a ∈ ([⟨"cn".toList, "+".toList⟩, ⟨"sn".toList, " ".toList⟩] : Rdn), '=' ∉ a.attributeType := by decide

/-- `unescape` is a left inverse of `escape` on every string. -/
theorem escape_roundtrip (U : Unicode) (s : Str) : unescape U (escape s) = .ok s := unescape_escape U s

/-- Different component lists never print alike. -/
theorem components_injective (d d' : Dn) (htypes : ∀ r ∈ d, ∀ a ∈ r, '=' ∉ a.attributeType)
    (hrdns : ∀ r ∈ d, r ≠ []) (htypes' : ∀ r ∈ d', ∀ a ∈ r, '=' ∉ a.attributeType)
    (hrdns' : ∀ r ∈ d', r ≠ []) (h : d.text = d'.text) : d = d' := by
  have h1 := components_roundtrip asciiTables d htypes hrdns
  rw [h, components_roundtrip asciiTables d' htypes' hrdns'] at h1
  cases h1; rfl

/-- The condition on attribute types is needed: a type that contains `=` is read back differently. -/
theorem equals_in_type_lost : ∃ d : Dn, (∀ r ∈ d, r ≠ []) ∧ ∀ U, Dn.parse U d.text ≠ .ok d := by
  refine ⟨[[⟨"a=b".toList, "c".toList⟩]], by simp, fun U h => ?_⟩
  have := (Dn.parse_good h).plain [⟨"a=b".toList, "c".toList⟩] (by simp) ⟨"a=b".toList, "c".toList⟩ (by simp)
  exact this (by decide)

end Verif.C10
