import Verif.Model.Connector
import Verif.Props.C12
import Mathlib.Data.List.Induction
/-
C56  Server override lookup picks the nearest enclosing entry.

Full statement: the override used for a DN is the one configured for the longest configured suffix of the DN, DNs being
compared as `==` compares them.  It is false when suffix and configuration differ in the case of letters
(`respelled_not_found`), since dictionaries compare hashes first (C12).
A DN text that ends in a comma does not find the override for the empty DN (`trailing_comma_not_found`).
Proved: the statement for DNs compared by spelling that have no empty RDN (`nearest_partial`).
`hash` is the hash of text; different texts are assumed not to collide.
-/
namespace Verif.C56
open Verif.Dn Verif.Connector

/-- The value configured last for exactly this DN. -/
def configured {α : Type} (items : List (Dn × α)) (d : Dn) : Option α := (items.reverse.find? fun p => p.1 = d).map (·.2)

/-- The DN and the DNs above it. -/
def suffixes : Dn → List Dn
  | [] => [[]]
  | r :: d => (r :: d) :: suffixes d

theorem mem_suffixes {x d : Dn} : x ∈ suffixes d ↔ x <:+ d := by
  induction d with
  | nil => simp [suffixes]
  | cons r d ih => simp [suffixes, ih, List.suffix_cons_iff]

/-- The value configured for the longest suffix that has one. -/
def nearest {α : Type} (items : List (Dn × α)) (d : Dn) : Option α := (suffixes d).findSome? (configured items)

variable {α : Type}

/-- DNs without an empty RDN and without `=` in a type; all parsed DNs are. -/
theorem text_inj {a b : Dn} (ha : a.Good) (hb : b.Good) (h : a.text = b.text) : a = b := by
  have h1 := Dn.parse_text asciiTables a ha
  rw [h, Dn.parse_text asciiTables b hb] at h1
  exact (Except.ok.inj h1).symm

theorem good_text_nil {a : Dn} (ha : a.Good) (h : a.text = []) : a = [] :=
  text_inj ha (by constructor <;> simp) (by rw [h]; rfl)

theorem match_iff (U : Unicode) (hash : Str → Int) (hh : Function.Injective hash) {a b : Dn} (ha : a.Good) (hb : b.Good) :
    (hash a.text = hash b.text ∧ Dn.eq U a b = true) ↔ a = b := by
  constructor
  · rintro ⟨h, _⟩; exact text_inj ha hb (hh h)
  · rintro rfl; exact ⟨rfl, (Dn.eq_iff U _ _).mpr rfl⟩

theorem dictSet_keys (U : Unicode) (hash : Str → Int) (k : Dn) (v : α) (d : List (Dn × α)) :
    ∀ p ∈ dictSet U hash k v d, p.1 = k ∨ ∃ q ∈ d, p.1 = q.1 := by
  induction d with
  | nil => intro p hp; simp [dictSet] at hp; left; rw [hp]
  | cons q d ih =>
    obtain ⟨k', v'⟩ := q
    intro p hp
    simp only [dictSet] at hp
    split at hp
    · rcases List.mem_cons.mp hp with rfl | hp
      · exact .inr ⟨_, List.mem_cons_self, rfl⟩
      · exact .inr ⟨p, List.mem_cons_of_mem _ hp, rfl⟩
    · rcases List.mem_cons.mp hp with rfl | hp
      · exact .inr ⟨_, List.mem_cons_self, rfl⟩
      · rcases ih p hp with h | ⟨q, hq, h⟩
        · exact .inl h
        · exact .inr ⟨q, List.mem_cons_of_mem _ hq, h⟩

theorem dictGet_set (U : Unicode) (hash : Str → Int) (hh : Function.Injective hash) {k x : Dn} (hk : k.Good) (hx : x.Good) (v : α)
    (d : List (Dn × α)) (hd : ∀ p ∈ d, p.1.Good) : dictGet U hash (dictSet U hash k v d) x = if k = x then some v else dictGet U hash d x := by
  induction d with
  | nil =>
    simp only [dictSet, dictGet, List.find?_cons, List.find?_nil]
    by_cases h : k = x
    · subst h; simp [(Dn.eq_iff U k k).mpr rfl]
    · have := mt (match_iff U hash hh hk hx).mp h
      simp only [this, decide_false, h, if_false]
  | cons q d ih =>
    obtain ⟨k', v'⟩ := q
    have hk' := hd _ (List.mem_cons_self)
    simp only [dictSet]
    by_cases h1 : k' = k
    · subst h1
      rw [if_pos ((match_iff U hash hh hk' hk).mpr rfl)]
      simp only [dictGet, List.find?_cons]
      by_cases h : k' = x
      · subst h; simp [(Dn.eq_iff U k' k').mpr rfl]
      · have := mt (match_iff U hash hh hk hx).mp h
        simp only [this, decide_false, h, if_false]
    · rw [if_neg (mt (match_iff U hash hh hk' hk).mp h1)]
      simp only [dictGet, List.find?_cons]
      by_cases h : k' = x
      · subst h
        simp [(Dn.eq_iff U k' k').mpr rfl, Ne.symm h1]
      · have := mt (match_iff U hash hh hk' hx).mp h
        simp only [this, decide_false]
        have := ih (fun p hp => hd p (List.mem_cons_of_mem _ hp))
        simp only [dictGet] at this
        exact this

theorem build_spec (U : Unicode) (hash : Str → Int) (hh : Function.Injective hash) (items : List (Dn × α)) (hi : ∀ p ∈ items, p.1.Good) :
    (∀ p ∈ build U hash items, p.1.Good) ∧ ∀ x : Dn, x.Good → dictGet U hash (build U hash items) x = configured items x := by
  induction items using List.reverseRecOn with
  | nil => exact ⟨by simp [build], by simp [build, dictGet, configured]⟩
  | append_singleton items p ih =>
    obtain ⟨h1, h2⟩ := ih (fun q hq => hi q (by simp [hq]))
    have hp := hi p (by simp)
    simp only [build, List.foldl_append, List.foldl_cons, List.foldl_nil]
    refine ⟨fun q hq => ?_, fun x hx => ?_⟩
    · rcases dictSet_keys U hash _ _ _ q hq with e | ⟨q', hq', e⟩
      · rw [e]; exact hp
      · rw [e]; exact h1 q' hq'
    · have := dictGet_set U hash hh hp hx p.2 _ h1
      simp only [build] at this h2
      rw [this, h2 x hx]
      simp only [configured, List.reverse_append, List.reverse_cons, List.reverse_nil, List.nil_append, List.singleton_append, List.find?_cons]
      by_cases h : p.1 = x <;> simp [h]

/-- The override used is the one configured last for the longest configured suffix, whatever the tables. -/
theorem nearest_partial (U : Unicode) (hash : Str → Int) (hh : Function.Injective hash) (items : List (Dn × α))
    (hi : ∀ p ∈ items, ∃ s, Dn.parse U s = .ok p.1) (s : Str) (d : Dn) (hd : Dn.parse U s = .ok d) (hne : [] ∉ d) :
    findOverRide U hash (build U hash items) d = nearest items d := by
  have hg : ∀ p ∈ items, p.1.Good := fun p hp => by obtain ⟨t, ht⟩ := hi p hp; exact Dn.parse_good ht
  obtain ⟨_, hb⟩ := build_spec U hash hh items hg
  have hdg := Dn.parse_good hd
  clear hd
  induction d with
  | nil => simp only [findOverRide, hb _ hdg, nearest, suffixes, List.findSome?_cons, List.findSome?_nil]; split <;> simp_all
  | cons r d ih =>
    have htail : Dn.Good d := by
      constructor
      · intro r' hr'; exact hdg.1 r' (List.mem_cons_of_mem _ hr')
      · rintro rfl; simp at hne
    simp only [findOverRide, hb _ hdg, nearest, suffixes, List.findSome?_cons]
    cases hc : configured items (r :: d) with
    | some v => rfl
    | none =>
      simp only
      rw [if_neg (fun e => by cases good_text_nil hdg e)]
      exact ih (fun h => hne (List.mem_cons_of_mem _ h)) htail

/-- No override is used exactly if no suffix is configured. -/
theorem none_iff (U : Unicode) (hash : Str → Int) (hh : Function.Injective hash) (items : List (Dn × α))
    (hi : ∀ p ∈ items, ∃ s, Dn.parse U s = .ok p.1) (s : Str) (d : Dn) (hd : Dn.parse U s = .ok d) (hne : [] ∉ d) :
    findOverRide U hash (build U hash items) d = none ↔ ∀ p ∈ items, ¬ p.1 <:+ d := by
  rw [nearest_partial U hash hh items hi s d hd hne]
  unfold nearest configured
  rw [List.findSome?_eq_none_iff]
  simp only [mem_suffixes, Option.map_eq_none_iff, List.find?_eq_none, List.mem_reverse, decide_eq_true_eq]
  constructor
  · intro h p hp hs; exact h p.1 hs p hp rfl
  · rintro h x hx p hp rfl; exact h p hp hx

/-- An override is not found when the DN is spelled in another case. -/
theorem respelled_not_found (U : Unicode) (hash : Str → Int) (hh : Function.Injective hash) (hU : U.lower ['A'] = U.lower ['a']) :
    ∃ (k d : Dn), Dn.eq U k d = true ∧ findOverRide U hash (build U hash [(k, true)]) d = none := by
  refine ⟨[[⟨['d', 'c'], ['A']⟩]], [[⟨['d', 'c'], ['a']⟩]], ?_, ?_⟩
  · simp [Dn.eq, tupleEq, Rdn.eq, Ava.eq, hU]
  · refine (none_iff U hash hh _ ?_ ['d', 'c', '=', 'a'] _ ?_ (by decide)).mpr (by decide)
    · intro p hp
      refine ⟨['d', 'c', '=', 'A'], ?_⟩
      simp only [List.mem_singleton] at hp
      subst hp
      exact Dn.parse_text U [[⟨['d', 'c'], ['A']⟩]] (by constructor <;> simp [Ava.Plain])
    · exact Dn.parse_text U [[⟨['d', 'c'], ['a']⟩]] (by constructor <;> simp [Ava.Plain])

/-- The default override, configured for the empty DN, is not found for a DN text that ends in a comma. -/
theorem trailing_comma_not_found (hash : Str → Int) : ∃ (s : Str) (d : Dn), Dn.parse asciiTables s = .ok d ∧
    findOverRide asciiTables hash (build asciiTables hash [([], true)]) d = none := by
  refine ⟨"dc=x,".toList, [[⟨['d', 'c'], ['x']⟩], []], by decide +kernel, ?_⟩
  have e : ∀ (r : Rdn) (d : Dn), Dn.eq asciiTables [] (r :: d) = false := fun _ _ => rfl
  have g : ∀ (r : Rdn) (d : Dn), dictGet asciiTables hash [([], true)] (r :: d) = none := by
    intro r d
    simp [dictGet, e]
  simp only [build, List.foldl_cons, List.foldl_nil, dictSet, findOverRide, g]
  simp [Dn.text, joinWith, Rdn.text]

/-- Nested overrides: the nearest is used, and a later item for the same DN replaces the earlier one. -/
example : nearest [([], 1), ([[⟨['d', 'c'], ['x']⟩]], 2), ([[⟨['d', 'c'], ['x']⟩]], 3)]
    [[⟨['c', 'n'], ['a']⟩], [⟨['d', 'c'], ['x']⟩]] = some 3 := by decide +kernel

end Verif.C56
