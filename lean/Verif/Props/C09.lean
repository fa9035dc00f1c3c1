import Verif.Lemmas.Dn
/-
C09  DN text is stable under parse and print.
-/
namespace Verif.C09
open Verif.Dn

/-- If a text parses as a DN, printing the DN and parsing the result gives the same DN. -/
theorem parse_print_parse (U : Unicode) (s : Str) (d : Dn) (h : Dn.parse U s = .ok d) :
    Dn.parse U d.text = .ok d :=
  Dn.parse_text U d (Dn.parse_good h)

example : Dn.parse asciiTables "cn=a\\,b+sn=\\ x , ,dc=\\41\\".toList = .error .indexError := by decide +kernel
example : Dn.parse asciiTables "cn=a\\,b+sn=\\ x , ,dc=\\41".toList =
    .ok [[⟨"cn".toList, "a,b".toList⟩, ⟨"sn".toList, " x ".toList⟩], [], [⟨"dc".toList, "A".toList⟩]] := by
  decide +kernel

/-- The printed text is canonical: printing is idempotent. -/
theorem print_idempotent (U : Unicode) (s : Str) (d d' : Dn) (h : Dn.parse U s = .ok d)
    (h' : Dn.parse U d.text = .ok d') : d'.text = d.text := by
  rw [parse_print_parse U s d h] at h'; cases h'; rfl

/-- Two texts that print alike were parsed to the same DN. -/
theorem print_injective (U : Unicode) (s s' : Str) (d d' : Dn) (h : Dn.parse U s = .ok d)
    (h' : Dn.parse U s' = .ok d') (ht : d.text = d'.text) : d = d' := by
  have h1 := parse_print_parse U s d h
  rw [ht, parse_print_parse U s' d' h'] at h1
  cases h1; rfl

-- the hypotheses of the two theorems above are met by different spellings of one DN
example : Dn.parse asciiTables "a=b,  c=d".toList = .ok [[⟨"a".toList, "b".toList⟩], [⟨"c".toList, "d".toList⟩]] ∧
    Dn.parse asciiTables "a=\\62,c=d".toList = .ok [[⟨"a".toList, "b".toList⟩], [⟨"c".toList, "d".toList⟩]] := by
  decide +kernel

end Verif.C09
