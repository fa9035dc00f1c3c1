import Verif.Lemmas.Match
/-
C65  An extensible match without a rule holds where the attribute has the value.

Full statement (RFC 4511, 4.5.1.7.7): such a filter holds iff the attribute has the value, up to case, in the entry, or, if
the `dnAttributes` flag is set, in its DN.  It is false in both directions: the flag is ignored (`flag_ignored`), octets
never match the DN nor text values (`octets_miss_dn`, `octets_miss_text`), and the attribute type in the DN is compared
exactly (`type_case_missed`).
Proved: what the code decides, exactly (`exact_partial`), and that it never accepts without an attribute or DN component of
that name and value (`only_if_partial`).
-/
namespace Verif.C65
open Verif.Match Verif.Spec PyStr

/-- The entry has attribute `a` with the value `x`, up to case. -/
def EntryHas (U : Unicode) (e : Entry) (a x : PyStr) : Prop := ∃ vs v, HasAttr e a vs ∧ v ∈ vs ∧ SameValue U v x

/-- The DN of the entry has a component of type `a` with value `x`, up to case. -/
def DnHas (U : Unicode) (e : Entry) (a x : PyStr) : Prop :=
  ∃ rdn ∈ e.dn, ∃ av ∈ rdn, SameName (.text av.attributeType) a ∧ SameValue U (.text av.value) x

/-- The full statement; `d` is the flag `dnAttributes`. -/
def Full : Prop := ∀ (U : Unicode) (e : Entry) (a x : PyStr) (d : Bool), Sane U → WellNamed e → a.Ascii →
  (eval U e (.extensible none (some a) x) = .ok true ↔ EntryHas U e a x ∨ (d = true ∧ DnHas U e a x))

theorem inDn_iff {U : Unicode} {a x : PyStr} {dn : Dn.Dn} : inDn U a x dn = true ↔
    ∃ rdn ∈ dn, ∃ av ∈ rdn, a = .text av.attributeType ∧ x = .text (U.lower av.value) := by
  simp [inDn]

/-- What is decided: the attribute has a value of the same kind (text or octets) equal up to case, or the DN has a component
with exactly this type and this value up to case, both given as text.  The filter never raises. -/
theorem exact_partial {U : Unicode} (hU : Sane U) {e : Entry} (he : WellNamed e) (a x : PyStr) (ha : a.Ascii) :
    ∃ b, eval U e (.extensible none (some a) x) = .ok b ∧
      (b = true ↔ (∃ vs v, HasAttr e a vs ∧ v ∈ vs ∧ v.isText = x.isText ∧ SameValue U v x) ∨
        (∃ rdn ∈ e.dn, ∃ av ∈ rdn, a = .text av.attributeType ∧ x.isText = true ∧ SameValue U x (.text av.value))) := by
  obtain ⟨r, hr, hv⟩ := get_values hU he ha
  refine ⟨inLower U (x.lower U) (r.getD []) || inDn U a (x.lower U) e.dn, ?_, ?_⟩
  · simp only [eval, hr, bind, Except.bind, pure, Except.pure]
    cases inLower U (x.lower U) (r.getD []) <;> rfl
  · rw [Bool.or_eq_true, inLower_iff, inDn_iff]
    refine or_congr ?_ ?_
    · constructor
      · rintro ⟨v, hm, h⟩
        obtain ⟨vs, h1, h2⟩ := (hv v).mp hm
        refine ⟨vs, v, h1, h2, ?_, by unfold SameValue; rw [h]⟩
        have := congrArg PyStr.isText h
        rwa [lower_isText, lower_isText] at this
      · rintro ⟨vs, v, h1, h2, h3, h4⟩
        refine ⟨v, (hv v).mpr ⟨vs, h1, h2⟩, ?_⟩
        rw [eq_iff, lower_isText, lower_isText]
        exact ⟨h3, h4⟩
    · constructor
      · rintro ⟨rdn, hrdn, av, hav, h1, h2⟩
        refine ⟨rdn, hrdn, av, hav, h1, ?_, ?_⟩
        · have := congrArg PyStr.isText h2
          rwa [lower_isText] at this
        · unfold SameValue; rw [h2]; rfl
      · rintro ⟨rdn, hrdn, av, hav, h1, h2, h3⟩
        refine ⟨rdn, hrdn, av, hav, h1, ?_⟩
        rw [eq_iff, lower_isText]
        exact ⟨h2, h3⟩

/-- Accepting needs the attribute or the component. -/
theorem only_if_partial {U : Unicode} (hU : Sane U) {e : Entry} (he : WellNamed e) (a x : PyStr) (ha : a.Ascii)
    (h : eval U e (.extensible none (some a) x) = .ok true) : EntryHas U e a x ∨ DnHas U e a x := by
  obtain ⟨b, h1, h2⟩ := exact_partial hU he a x ha
  rw [h1] at h
  cases h
  rcases h2.mp rfl with ⟨vs, v, g1, g2, _, g3⟩ | ⟨rdn, hrdn, av, hav, rfl, _, g3⟩
  · exact .inl ⟨vs, v, g1, g2, g3⟩
  · exact .inr ⟨rdn, hrdn, av, hav, rfl, g3.symm⟩

def entry : Entry := ⟨[[⟨"cn".toList, "Bob".toList⟩], [⟨"DC".toList, "x".toList⟩]], [(.text "sn".toList, [.text "Smith".toList])]⟩

theorem entry_named : WellNamed entry := by
  constructor
  · intro k vs h
    simp only [entry, List.mem_cons, Prod.mk.injEq, List.not_mem_nil, or_false] at h
    rw [h.1]
    unfold Ascii
    decide
  · simp [entry]

/-- Both kinds of component, any case. -/
example : eval asciiTables entry (.extensible none (some (.text "SN".toList)) (.text "smith".toList)) = .ok true ∧
    eval asciiTables entry (.extensible none (some (.text "cn".toList)) (.text "BOB".toList)) = .ok true ∧
    eval asciiTables entry (.extensible none (some (.text "sn".toList)) (.text "bob".toList)) = .ok false := by
  decide +kernel

/-- The DN is consulted whether or not the filter asks for it. -/
theorem flag_ignored : ¬ Full := by
  intro H
  have h1 : eval asciiTables entry (.extensible none (some (.text "cn".toList)) (.text "bob".toList)) = .ok true := by
    decide +kernel
  have ha : PyStr.Ascii (.text "cn".toList) := by unfold Ascii; decide
  rcases (H asciiTables entry _ _ false asciiTables_sane entry_named ha).mp h1 with ⟨vs, v, ⟨k, hk, hn⟩, _⟩ | ⟨h, _⟩
  · simp only [entry, List.mem_cons, Prod.mk.injEq, List.not_mem_nil, or_false] at hk
    rw [hk.1] at hn
    revert hn
    unfold SameName
    decide +kernel
  · cases h

/-- A filter received from the network holds octets, and never matches the DN. -/
theorem octets_miss_dn : eval asciiTables entry (.extensible none (some (.bytes "cn".toUTF8.toList)) (.bytes "Bob".toUTF8.toList)) =
    .ok false := by decide +kernel

/-- Nor a value stored as text. -/
theorem octets_miss_text : eval asciiTables entry (.extensible none (some (.bytes "sn".toUTF8.toList)) (.bytes "Smith".toUTF8.toList)) =
    .ok false := by decide +kernel

/-- The type of a DN component is compared exactly. -/
theorem type_case_missed : eval asciiTables entry (.extensible none (some (.text "dc".toList)) (.text "x".toList)) = .ok false := by
  decide +kernel

end Verif.C65
