import Verif.Lemmas.FilterText
import Verif.Lemmas.FilterEq
/-
C14  Search filters round-trip through their text form.

Full statement: printing a filter built from valid attribute names and non-empty values, and parsing the text, gives the
same filter.  It is false for values that contain a tab (`tab_lost`), since pyparsing replaces tabs by blanks.
Proved: the statement for all filters whose values contain no tab (`text_roundtrip_partial`); with the binary escaper
also for values with tabs (`text_roundtrip_binary_partial`).  The conditions on the shape of a filter (`Spec.Valid`) are
needed: `empty_set_lost`, `rule_dn_lost`, `no_pieces_lost`, `no_dn_flag_changed`.
-/
namespace Verif.C14
open Verif.FilterText Verif.Spec

/-- Every valid filter whose values contain no tab prints to a text that parses to the same filter. -/
theorem text_roundtrip_partial (f : Filter) (h : Valid TabFree f) :
    ∃ t, f.asText escape = .ok t ∧ parseFilter t = .ok f :=
  parseFilter_text escape_escaper f h

/-- With the binary escaper, values may contain any character below 256. -/
theorem text_roundtrip_binary_partial (f : Filter) (h : Valid Latin f) :
    ∃ t, f.asText binaryEscape = .ok t ∧ parseFilter t = .ok f :=
  parseFilter_text binaryEscape_escaper f h

/-- Different valid filters print differently. -/
theorem text_injective_partial (f g : Filter) (hf : Valid TabFree f) (hg : Valid TabFree g)
    (h : f.asText escape = g.asText escape) : f = g := by
  obtain ⟨t, ht, hp⟩ := text_roundtrip_partial f hf
  obtain ⟨u, hu, hq⟩ := text_roundtrip_partial g hg
  rw [ht, hu] at h
  cases h
  rw [hp] at hq
  cases hq; rfl

def cn : Str := ['c', 'n']
theorem cn_name : AttrName cn := ⟨'c', ['n'], rfl, by decide, by decide⟩

/-- A filter with every construct, and awkward values. -/
def sample : Filter :=
  .and [.or [.equality cn "(*)\\\x00é ".toList, .not (.present cn)], .greaterOrEqual cn " ".toList,
    .lessOrEqual cn "x".toList, .approx cn "~".toList,
    .substrings cn (pieces none ["a*b".toList, "c".toList] (some ")".toList)),
    .extensible none (some cn) ":".toList (some true),
    .extensible (some "1.2.3".toList) none "v".toList (some false),
    .extensible (some "dnx".toList) (some cn) "v".toList (some true)]

theorem sample_valid : Valid TabFree sample := by
  have tf : ∀ v : Str, v ≠ [] → '\t' ∉ v → TabFree v := fun _ h1 h2 => ⟨h1, h2⟩
  refine .and _ (by simp) ?_
  intro f hf
  simp only [List.mem_cons, List.not_mem_nil, or_false] at hf
  rcases hf with rfl | rfl | rfl | rfl | rfl | rfl | rfl | rfl
  · refine .or _ (by simp) ?_
    intro f hf
    simp only [List.mem_cons, List.not_mem_nil, or_false] at hf
    rcases hf with rfl | rfl
    · exact .equality _ _ cn_name (tf _ (by decide) (by decide))
    · exact .not _ (.present _ cn_name)
  · exact .greaterOrEqual _ _ cn_name (tf _ (by decide) (by decide))
  · exact .lessOrEqual _ _ cn_name (tf _ (by decide) (by decide))
  · exact .approx _ _ cn_name (tf _ (by decide) (by decide))
  · refine .substrings _ _ _ _ cn_name (by decide) (by simp) ?_ ?_
    · intro v hv
      simp only [List.mem_cons, List.not_mem_nil, or_false] at hv
      rcases hv with rfl | rfl <;> exact tf _ (by decide) (by decide)
    · intro v hv; cases hv; exact tf _ (by decide) (by decide)
  · exact .extType _ _ _ cn_name (tf _ (by decide) (by decide))
  · refine .ext _ _ _ _ (.inl (.dot ['1'] "2.3".toList (by decide) (by decide)
      (.dot ['2'] ['3'] (by decide) (by decide) (.single _ (by decide) (by decide))))) (by simp)
      (tf _ (by decide) (by decide)) (fun _ => by decide)
  · refine .ext _ _ _ _ (.inr ⟨'d', ['n', 'x'], rfl, by decide, by decide⟩) ?_ (tf _ (by decide) (by decide)) (by simp)
    intro a ha; cases ha; exact cn_name

example : ∃ f, Valid TabFree f ∧ f.asText escape = .ok
    ("(&(|(cn=\\28\\2a\\29\\5c\\00é )(!(cn=*)))(cn>= )(cn<=x)(cn~=~)(cn=*a\\2ab*c*\\29)" ++
     "(cn:dn:=:)(:1.2.3:=v)(cn:dn:dnx:=v))").toList :=
  ⟨sample, sample_valid, by decide +kernel⟩

example : Valid Latin (.equality cn "\t\xff(".toList) :=
  .equality _ _ cn_name ⟨by decide, by decide⟩

theorem loop_ok_final {esc : Str → Str} {ps : List Piece} {i f : Option Str} {acc : List Str} {t : Str} (hf : f.isSome = true)
    (h : substringsLoop esc ps i acc f = .ok t) : ps = [] := by
  cases ps with
  | nil => rfl
  | cons p ps => cases p <;> simp [substringsLoop, hf] at h

theorem loop_ok_any {esc : Str → Str} {ps : List Piece} {i : Option Str} {acc : List Str} {t : Str} (ha : acc ≠ [])
    (h : substringsLoop esc ps i acc none = .ok t) : ∃ as f, ps = pieces none as f := by
  induction ps generalizing acc with
  | nil => exact ⟨[], none, rfl⟩
  | cons p ps ih =>
    cases p with
    | initial v => cases acc <;> simp_all [substringsLoop]
    | any v =>
      simp only [substringsLoop, Option.isSome_none, Bool.false_eq_true, ↓reduceIte] at h
      obtain ⟨as, f, rfl⟩ := ih (by simp) h
      exact ⟨v :: as, f, by simp [pieces]⟩
    | final v =>
      simp only [substringsLoop, Option.isSome_none, Bool.false_eq_true, ↓reduceIte] at h
      have := loop_ok_final rfl h
      subst this
      exact ⟨[], some v, by simp [pieces]⟩

theorem loop_ok_initial {esc : Str → Str} {ps : List Piece} {v t : Str}
    (h : substringsLoop esc ps (some v) [] none = .ok t) : ∃ as f, ps = pieces none as f := by
  cases ps with
  | nil => exact ⟨[], none, rfl⟩
  | cons p ps =>
    cases p with
    | initial v => simp [substringsLoop] at h
    | any v =>
      simp only [substringsLoop, Option.isSome_none, Bool.false_eq_true, ↓reduceIte] at h
      obtain ⟨as, f, rfl⟩ := loop_ok_any (by simp) h
      exact ⟨v :: as, f, by simp [pieces]⟩
    | final v =>
      simp only [substringsLoop, Option.isSome_none, Bool.false_eq_true, ↓reduceIte] at h
      have := loop_ok_final rfl h
      subst this
      exact ⟨[], some v, by simp [pieces]⟩

/-- A substring filter has a text form exactly if its pieces stand in the order first, inner, last. -/
theorem substrings_text_iff (esc : Str → Str) (a : Str) (ps : List Piece) :
    (∃ t, (Filter.substrings a ps).asText esc = .ok t) ↔ ∃ i as f, ps = pieces i as f := by
  constructor
  · rintro ⟨t, h⟩
    rw [Filter.asText] at h
    cases hl : substringsLoop esc ps none [] none with
    | error e => rw [hl] at h; cases h
    | ok u =>
      clear h
      cases ps with
      | nil => exact ⟨none, [], none, rfl⟩
      | cons p ps =>
        cases p with
        | initial v =>
          simp only [substringsLoop, Option.isSome_none, List.isEmpty_nil, Bool.not_true, Bool.or_false,
            Bool.false_eq_true, ↓reduceIte] at hl
          obtain ⟨as, f, rfl⟩ := loop_ok_initial hl
          exact ⟨some v, as, f, by simp [pieces]⟩
        | any v =>
          simp only [substringsLoop, Option.isSome_none, Bool.false_eq_true, ↓reduceIte] at hl
          obtain ⟨as, f, rfl⟩ := loop_ok_any (by simp) hl
          exact ⟨none, v :: as, f, by simp [pieces]⟩
        | final v =>
          simp only [substringsLoop, Option.isSome_none, Bool.false_eq_true, ↓reduceIte] at hl
          have := loop_ok_final rfl hl
          subst this
          exact ⟨none, [], some v, by simp [pieces]⟩
  · rintro ⟨i, as, f, rfl⟩
    rw [Filter.asText, substringsLoop_pieces]
    exact ⟨_, rfl⟩

example : ∃ i as f, [Piece.initial ['x'], .any ['y'], .any ['z']] = pieces i as f := ⟨some ['x'], [['y'], ['z']], none, rfl⟩

/-- The full statement, for values that are merely non-empty. -/
def FullRoundtrip : Prop :=
  ∀ f, Valid (fun v => v ≠ []) f → ∃ t, f.asText escape = .ok t ∧ parseFilter t = .ok f

/-- A value with a tab comes back with blanks instead. -/
theorem tab_lost : ¬ FullRoundtrip := by
  intro H
  obtain ⟨t, ht, hp⟩ := H (.equality cn ['a', '\t', 'b']) (.equality _ _ cn_name (by simp))
  have e : t = ['(', 'c', 'n', '=', 'a', '\t', 'b', ')'] := by cases ht; decide
  rw [e] at hp
  have : parseFilter ['(', 'c', 'n', '=', 'a', '\t', 'b', ')'] = .ok (.equality cn ['a', ' ', ' ', ' ', 'b']) := by decide +kernel
  rw [this] at hp
  cases hp

/-- `(&)` is printed but cannot be parsed. -/
theorem empty_set_lost : (Filter.and []).asText escape = .ok ['(', '&', ')'] ∧
    parseFilter ['(', '&', ')'] = .error .parseError := by decide +kernel

/-- A rule whose name begins with `dn` cannot be parsed without the DN flag. -/
theorem rule_dn_lost : (Filter.extensible (some ['d', 'n', 'x']) (some cn) ['v'] (some false)).asText escape =
      .ok "(cn:dnx:=v)".toList ∧ parseFilter "(cn:dnx:=v)".toList = .error .parseError := by
  constructor
  · decide +kernel
  · decide +kernel

/-- A substring filter without pieces is read back as a presence filter. -/
theorem no_pieces_lost : (Filter.substrings cn []).asText escape = .ok ['(', 'c', 'n', '=', '*', ')'] ∧
    parseFilter ['(', 'c', 'n', '=', '*', ')'] = .ok (.present cn) := by decide +kernel

/-- A missing DN flag is read back as a false one (and is then written on the wire). -/
theorem no_dn_flag_changed : (Filter.extensible none (some cn) ['v'] none).asText escape =
      .ok "(cn:=v)".toList ∧ parseFilter "(cn:=v)".toList = .ok (.extensible none (some cn) ['v'] (some false)) := by
  constructor
  · decide +kernel
  · decide +kernel

end Verif.C14
