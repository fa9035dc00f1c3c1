import Verif.Model.FilterObj
import Verif.Spec.FilterText
import Verif.Props.C17
import Verif.Props.C67
/-
C81  A filter parsed from text matches the same entries in the same process and after it was sent.

False for values outside ASCII (`accent`), and for order and substring tests of octets, which raise in the same process
(`order_raises`, `substring_raises`).  Proved for presence and equality tests, with values in ASCII, and all that is built from
them by and, or and not (`same_partial`).
-/
namespace Verif.C81
open Verif.Spec Verif.FilterText Verif.Match

/-- Presence tests, and equality tests with values in ASCII, combined in any way. -/
inductive Plain : FilterText.Filter → Prop where
  | present (a) : AttrName a → Plain (.present a)
  | equality (a v) : AttrName a → Utf8.AsciiText v → Plain (.equality a v)
  | and (fs) : (∀ f ∈ fs, Plain f) → Plain (.and fs)
  | or (fs) : (∀ f ∈ fs, Plain f) → Plain (.or fs)
  | not (f) : Plain f → Plain (.not f)

theorem letter_ascii {c : Char} (h : Letter c) : c.toNat < 128 := by
  rcases h with ⟨_, h⟩ | ⟨_, h⟩
  · have : c.toNat ≤ 122 := h
    omega
  · have : c.toNat ≤ 90 := h
    omega

theorem name_ascii {a : Str} (h : AttrName a) : (PyStr.text a).Ascii := by
  refine PyStr.encode_ascii_iff.mpr ?_
  obtain ⟨c, t, rfl, hc, ht⟩ := h
  intro x hx
  rcases List.mem_cons.mp hx with rfl | hx
  · exact letter_ascii hc
  · rcases ht x hx with h | h | rfl | rfl
    · exact letter_ascii h
    · have : x.toNat ≤ 57 := h.2
      omega
    · decide
    · decide

theorem value_same {U : Unicode} (hU : Sane U) {v : Str} (hv : Utf8.AsciiText v) (x : PyStr) :
    SameValue U x (.text v) ↔ SameValue U x (.bytes (Utf8.encode v)) := by
  unfold SameValue
  have h1 := PyStr.lower_toBytes hU (x := .text v) (PyStr.encode_ascii_iff.mpr hv)
  have h2 := PyStr.lower_toBytes hU (x := .bytes (Utf8.encode v)) (PyStr.encode_ascii_iff.mpr hv)
  rw [h1, h2]; rfl

theorem heres_eq (fs : List FilterText.Filter) : Filter.heres fs = fs.map Filter.here := by
  induction fs with
  | nil => rfl
  | cons f fs ih => simp [Filter.heres, ih]

theorem objs_eq (fs : List FilterText.Filter) : Filter.objs fs = fs.map Filter.obj := by
  induction fs with
  | nil => rfl
  | cons f fs ih => simp [Filter.objs, ih]

theorem toFilters_eq (l : List Ldap.Obj) : Server.toFilters l = l.map Server.toFilter := by
  induction l with
  | nil => rfl
  | cons f fs ih => simp [Server.toFilters, ih]

theorem arrived_eq (a v : Str) : Server.toFilter (Filter.equality a v).obj = .equality (.bytes (Utf8.encode a)) (.bytes (Utf8.encode v)) := by
  simp [Filter.obj, Server.toFilter, Server.assertion, Server.octets?, stringObj, Ldap.Obj.value, Server.octetsOf]

theorem testable (e : Entry) {f : FilterText.Filter} (h : Plain f) : Testable e f.here ∧ Testable e (Server.toFilter f.obj) := by
  induction h with
  | present a ha => exact ⟨.present _ (name_ascii ha), .present _ (name_ascii ha)⟩
  | equality a v ha hv =>
    rw [arrived_eq]
    exact ⟨.equality _ _ (name_ascii ha) ⟨v, rfl⟩, .equality _ _ (name_ascii ha) ⟨v, rfl⟩⟩
  | and fs _ ih =>
    simp only [Filter.here, Filter.obj, Server.toFilter, heres_eq, objs_eq, toFilters_eq]
    constructor <;> refine .and _ fun g hg => ?_
    · obtain ⟨x, hx, rfl⟩ := List.mem_map.mp hg
      exact (ih x hx).1
    · rw [List.map_map] at hg
      obtain ⟨x, hx, rfl⟩ := List.mem_map.mp hg
      exact (ih x hx).2
  | or fs _ ih =>
    simp only [Filter.here, Filter.obj, Server.toFilter, heres_eq, objs_eq, toFilters_eq]
    constructor <;> refine .or _ fun g hg => ?_
    · obtain ⟨x, hx, rfl⟩ := List.mem_map.mp hg
      exact (ih x hx).1
    · rw [List.map_map] at hg
      obtain ⟨x, hx, rfl⟩ := List.mem_map.mp hg
      exact (ih x hx).2
  | not f _ ih => exact ⟨.not _ ih.1, .not _ ih.2⟩

theorem holds_sent {U : Unicode} (hU : Sane U) {e : Entry} {f : FilterText.Filter} (h : Plain f) :
    ∀ b, Holds U e f.here b → Holds U e (Server.toFilter f.obj) b := by
  induction h with
  | present a ha =>
    intro b hb
    cases hb with
    | present_yes _ vs h => exact .present_yes _ vs h
    | present_no _ h => exact .present_no _ h
  | equality a v ha hv =>
    intro b hb
    rw [arrived_eq]
    cases hb with
    | equality_yes _ _ vs w h1 h2 h3 => exact .equality_yes _ _ vs w h1 h2 ((value_same hU hv w).mp h3)
    | equality_no _ _ h => exact .equality_no _ _ fun vs w h1 h2 h3 => h vs w h1 h2 ((value_same hU hv w).mpr h3)
  | and fs _ ih =>
    intro b hb
    simp only [Filter.here, heres_eq] at hb
    simp only [Filter.obj, Server.toFilter, objs_eq, toFilters_eq, List.map_map]
    cases hb with
    | and_yes _ h =>
      refine .and_yes _ fun g hg => ?_
      obtain ⟨x, hx, rfl⟩ := List.mem_map.mp hg
      exact ih x hx _ (h _ (List.mem_map_of_mem hx))
    | and_no _ g hg h =>
      obtain ⟨x, hx, rfl⟩ := List.mem_map.mp hg
      exact .and_no _ _ (List.mem_map.mpr ⟨x, hx, rfl⟩) (ih x hx _ h)
  | or fs _ ih =>
    intro b hb
    simp only [Filter.here, heres_eq] at hb
    simp only [Filter.obj, Server.toFilter, objs_eq, toFilters_eq, List.map_map]
    cases hb with
    | or_no _ h =>
      refine .or_no _ fun g hg => ?_
      obtain ⟨x, hx, rfl⟩ := List.mem_map.mp hg
      exact ih x hx _ (h _ (List.mem_map_of_mem hx))
    | or_yes _ g hg h =>
      obtain ⟨x, hx, rfl⟩ := List.mem_map.mp hg
      exact .or_yes _ _ (List.mem_map.mpr ⟨x, hx, rfl⟩) (ih x hx _ h)
  | not f _ ih =>
    intro b hb
    cases hb with
    | not _ b h => exact .not _ b (ih b h)

/-- Evaluated in the process that parsed the text, and by a server that received it, such a filter gives the same answer. -/
theorem same_partial (U : Unicode) (hU : Sane U) (e : Entry) (he : WellNamed e) (f : FilterText.Filter) (hf : Plain f) :
    ∃ b, eval U e f.here = .ok b ∧ eval U e (Server.toFilter f.obj) = .ok b := by
  obtain ⟨t1, t2⟩ := testable e hf
  obtain ⟨b, h1, h2⟩ := C17.eval_correct_partial U hU e he f.here t1
  exact ⟨b, h1, (C17.eval_iff_partial U hU e he _ t2 b).mpr (holds_sent hU hf b h2)⟩

/-- A filter with a negation, and an entry to which it applies. -/
example : WellNamed C67.child ∧ Plain (.and [.equality ['c','n'] ['B'], .not (.present ['s','n'])]) := by
  have hn : ∀ a ∈ [['c','n'], ['s','n']], AttrName a := by
    intro a ha
    simp only [List.mem_cons, List.not_mem_nil, or_false] at ha
    rcases ha with rfl | rfl
    · exact ⟨_, _, rfl, by decide, by decide⟩
    · exact ⟨_, _, rfl, by decide, by decide⟩
  refine ⟨(C67.sendable 1 _ rfl).named, .and _ fun f hf => ?_⟩
  simp only [List.mem_cons, List.not_mem_nil, or_false] at hf
  rcases hf with rfl | rfl
  · exact .equality _ _ (hn _ (by simp)) (by decide)
  · exact .not _ (.present _ (hn _ (by simp)))

/-! ### Where the claim fails -/

/-- Tables that know one letter with an accent. -/
def accents : Unicode := { asciiTables with lower := fun s => s.map fun c => if c = 'É' then 'é' else c.toLower }

theorem accents_sane : Sane accents := ⟨fun s hs => List.map_congr_left fun c hc => by
  have := hs c hc
  rw [if_neg]
  rintro rfl
  exact absurd this (by decide)⟩

/-- An entry with the name É, as octets. -/
def named : Entry := ⟨[], [(.bytes (Utf8.encode ['c','n']), [.bytes (Utf8.encode ['É'])])]⟩

/-- `(cn=É)` matches it when the filter was sent, but not in the same process: lower case is made of text, not of octets. -/
theorem accent : eval accents named (Filter.equality ['c','n'] ['É']).here = .ok false ∧
    eval accents named (Server.toFilter (Filter.equality ['c','n'] ['É']).obj) = .ok true := by
  rw [arrived_eq]
  decide +kernel

/-- `(cn>=a)` raises in the same process. -/
theorem order_raises : eval accents named (Filter.greaterOrEqual ['c','n'] ['a']).here = .error .typeError ∧
    eval accents named (Server.toFilter (Filter.greaterOrEqual ['c','n'] ['a']).obj) = .ok true := by
  decide +kernel

/-- `(cn=a*)` raises in the same process. -/
theorem substring_raises : eval accents named (Filter.substrings ['c','n'] [.initial ['a']]).here = .error .typeError ∧
    eval accents named (Server.toFilter (Filter.substrings ['c','n'] [.initial ['a']]).obj) = .ok false := by
  decide +kernel

end Verif.C81
