import Verif.Lemmas.Match
/-
C17  Filter evaluation follows boolean semantics.

Full statement: for every entry and every filter built from and/or/not, presence, equality and ordering tests, `match`
answers as the denotation of the filter says (`Spec.Holds`).  It is false: an equality test for octets that are not
UTF-8 raises (`undecodable_raises`), and an entry that lists an attribute both as text and as octets hides one of the
two (`second_listing_hidden`).
Proved: the statement for all entries that list each attribute once, and all filters the code can handle at all
(`Spec.Testable`).
-/
namespace Verif.C17
open Verif.Match Verif.Spec PyStr

/-- The denotation is a function: a filter does not both hold and fail. -/
theorem holds_unique {U : Unicode} {e : Entry} (f : Filter) (b c : Bool) (h1 : Holds U e f b) (h2 : Holds U e f c) :
    b = c := by
  induction h1 generalizing c with
  | present_yes a vs h => cases h2 with
    | present_yes => rfl
    | present_no _ h' => exact absurd h (h' vs)
  | present_no a h => cases h2 with
    | present_yes _ vs h' => exact absurd h' (h vs)
    | present_no => rfl
  | equality_yes a x vs v h hv hs => cases h2 with
    | equality_yes => rfl
    | equality_no _ _ h' => exact absurd hs (h' vs v h hv)
  | equality_no a x h => cases h2 with
    | equality_yes _ _ vs v h' hv hs => exact absurd hs (h vs v h' hv)
    | equality_no => rfl
  | ge_yes a x vs v h hv hs => cases h2 with
    | ge_yes => rfl
    | ge_no _ _ h' => exact absurd hs (h' vs v h hv)
  | ge_no a x h => cases h2 with
    | ge_yes _ _ vs v h' hv hs => exact absurd hs (h vs v h' hv)
    | ge_no => rfl
  | le_yes a x vs v h hv hs => cases h2 with
    | le_yes => rfl
    | le_no _ _ h' => exact absurd hs (h' vs v h hv)
  | le_no a x h => cases h2 with
    | le_yes _ _ vs v h' hv hs => exact absurd hs (h vs v h' hv)
    | le_no => rfl
  | and_yes fs h ih => cases h2 with
    | and_yes => rfl
    | and_no _ f hf h' => exact ih f hf _ h'
  | and_no fs f hf h ih => cases h2 with
    | and_yes _ h' => exact ih _ (h' f hf)
    | and_no => rfl
  | or_yes fs f hf h ih => cases h2 with
    | or_yes => rfl
    | or_no _ h' => exact ih _ (h' f hf)
  | or_no fs h ih => cases h2 with
    | or_yes _ f hf h' => exact ih f hf _ h'
    | or_no => rfl
  | not f b h ih => cases h2 with
    | not _ c h' => rw [ih c h']

theorem evalAll_spec {U : Unicode} {e : Entry} (fs : List Filter) (h : ∀ f ∈ fs, ∃ b, eval U e f = .ok b ∧ Holds U e f b) :
    ∃ b, evalAll U e fs = .ok b ∧ (b = true → ∀ f ∈ fs, Holds U e f true) ∧
      (b = false → ∃ f ∈ fs, Holds U e f false) := by
  induction fs with
  | nil => exact ⟨true, rfl, by simp, by simp⟩
  | cons f fs ih =>
    obtain ⟨b, hb, hh⟩ := h f (by simp)
    obtain ⟨c, hc, h1, h2⟩ := ih (fun g hg => h g (by simp [hg]))
    cases b with
    | false =>
      exact ⟨false, by simp [evalAll, hb, bind, Except.bind, pure, Except.pure], nofun, fun _ => ⟨f, by simp, hh⟩⟩
    | true =>
      refine ⟨c, by simp [evalAll, hb, hc, bind, Except.bind], fun h => ?_, fun h => ?_⟩
      · intro g hg
        rcases List.mem_cons.mp hg with rfl | hg
        · exact hh
        · exact h1 h g hg
      · obtain ⟨g, hg, hh⟩ := h2 h; exact ⟨g, by simp [hg], hh⟩

theorem evalAny_spec {U : Unicode} {e : Entry} (fs : List Filter) (h : ∀ f ∈ fs, ∃ b, eval U e f = .ok b ∧ Holds U e f b) :
    ∃ b, evalAny U e fs = .ok b ∧ (b = false → ∀ f ∈ fs, Holds U e f false) ∧
      (b = true → ∃ f ∈ fs, Holds U e f true) := by
  induction fs with
  | nil => exact ⟨false, rfl, by simp, by simp⟩
  | cons f fs ih =>
    obtain ⟨b, hb, hh⟩ := h f (by simp)
    obtain ⟨c, hc, h1, h2⟩ := ih (fun g hg => h g (by simp [hg]))
    cases b with
    | true =>
      exact ⟨true, by simp [evalAny, hb, bind, Except.bind, pure, Except.pure], nofun, fun _ => ⟨f, by simp, hh⟩⟩
    | false =>
      refine ⟨c, by simp [evalAny, hb, hc, bind, Except.bind], fun h => ?_, fun h => ?_⟩
      · intro g hg
        rcases List.mem_cons.mp hg with rfl | hg
        · exact hh
        · exact h1 h g hg
      · obtain ⟨g, hg, hh⟩ := h2 h; exact ⟨g, by simp [hg], hh⟩

theorem equality_spec {U : Unicode} (hU : Sane U) {e : Entry} (he : WellNamed e) (a x : PyStr) (ha : a.Ascii)
    (hx : x.Decodable) : ∃ b, eval U e (.equality a x) = .ok b ∧ Holds U e (.equality a x) b := by
  obtain ⟨r, hr, hv⟩ := get_values hU he ha
  obtain ⟨l, hl⟩ := getStrings_total.mp (lower_decodable (U := U) hx)
  obtain ⟨y, rfl, hy1, hy2⟩ := getStrings_ok hl
  have hany := anyPy_ok (fun z => do let r ← e.get U a; return inLower U z (r.getD []))
    (fun z => inLower U z (r.getD [])) [x.lower U, y] (by intro z _; simp [hr, bind, Except.bind, pure, Except.pure])
  refine ⟨_, by simp only [eval, hl, bind, Except.bind]; exact hany, ?_⟩
  cases hb : [x.lower U, y].any (fun z => inLower U z (r.getD [])) with
  | true =>
    simp only [List.any_cons, List.any_nil, Bool.or_false, Bool.or_eq_true, inLower_iff] at hb
    rcases hb with ⟨v, hm, hvv⟩ | ⟨v, hm, hvv⟩
    · obtain ⟨vs, h1, h2⟩ := (hv v).mp hm
      exact .equality_yes a x vs v h1 h2 (by unfold SameValue; rw [hvv])
    · obtain ⟨vs, h1, h2⟩ := (hv v).mp hm
      exact .equality_yes a x vs v h1 h2 (by unfold SameValue; rw [hvv, hy1])
  | false =>
    refine .equality_no a x fun vs v h1 h2 hs => ?_
    simp only [List.any_cons, List.any_nil, Bool.or_false, Bool.or_eq_false_iff] at hb
    have hm := (hv v).mpr ⟨vs, h1, h2⟩
    have n1 : v.lower U ≠ x.lower U := fun h => by have := inLower_iff.mpr ⟨v, hm, h⟩; rw [hb.1] at this; cases this
    have n2 : v.lower U ≠ y := fun h => by have := inLower_iff.mpr ⟨v, hm, h⟩; rw [hb.2] at this; cases this
    rw [Ne, eq_iff] at n1 n2
    unfold SameValue at hs
    rw [hy1, hy2] at n2
    cases h1 : (v.lower U).isText <;> cases h2 : (x.lower U).isText <;> simp_all

theorem present_spec {U : Unicode} (hU : Sane U) {e : Entry} (he : WellNamed e) (a : PyStr) (ha : a.Ascii) :
    ∃ b, eval U e (.present a) = .ok b ∧ Holds U e (.present a) b := by
  obtain ⟨l, hl⟩ := getStrings_total.mp (ascii_decodable ha)
  obtain ⟨y, rfl, hy1, hy2⟩ := getStrings_ok hl
  have hyA : y.Ascii := by unfold Ascii; rw [hy1]; exact ha
  obtain ⟨r, hr, hs⟩ := get_spec hU he ha
  obtain ⟨r2, hr2, hs2⟩ := get_spec hU he hyA
  have hsame : ∀ vs, HasAttr e y vs ↔ HasAttr e a vs := by intro vs; unfold HasAttr SameName; rw [hy1]
  have hany := anyPy_ok (fun k => e.hasKey U k) (fun k => if k = a then r.isSome else r2.isSome) [a, y] (by
    intro z hz
    simp only [List.mem_cons, List.not_mem_nil, or_false] at hz
    by_cases h : z = a
    · subst h; simp [Entry.hasKey, hr, bind, Except.bind, pure, Except.pure]
    · have : z = y := by rcases hz with h' | h'
                         · exact absurd h' h
                         · exact h'
      subst this; simp [Entry.hasKey, hr2, bind, Except.bind, pure, Except.pure, h])
  refine ⟨_, by simp only [eval, hl, bind, Except.bind]; exact hany, ?_⟩
  have hya : y ≠ a := by intro h; rw [h] at hy2; cases hb : a.isText <;> simp [hb] at hy2
  simp only [List.any_cons, List.any_nil, Bool.or_false, if_true, if_neg hya]
  cases r with
  | some vs => exact .present_yes a vs ((hs vs).mp rfl)
  | none =>
    have hno : ∀ vs, ¬ HasAttr e a vs := fun vs h => by have := (hs vs).mpr h; cases this
    cases r2 with
    | none => exact .present_no a hno
    | some vs => exact absurd ((hsame vs).mp ((hs2 vs).mp rfl)) (hno vs)

/-- Evaluation answers, and its answer is the denotation of the filter. -/
theorem eval_correct_partial (U : Unicode) (hU : Sane U) (e : Entry) (he : WellNamed e) (f : Filter) (hf : Testable e f) :
    ∃ b, eval U e f = .ok b ∧ Holds U e f b := by
  induction hf with
  | present a ha => exact present_spec hU he a ha
  | equality a x ha hx => exact equality_spec hU he a x ha hx
  | ge a x ha hk =>
    obtain ⟨r, hr, hv⟩ := get_values hU he ha
    have hle : ∀ v ∈ r.getD [], x.le v = .ok (decide (codes x ≤ codes v)) := by
      intro v hm
      obtain ⟨vs, h1, h2⟩ := (hv v).mp hm
      obtain ⟨b, hb, hi⟩ := le_spec (hk vs v h1 h2).symm
      rw [hb]; congr 1; rw [Bool.eq_iff_iff]; simp [hi]
    refine ⟨_, by simp only [eval, hr, bind, Except.bind]; exact anyPy_ok _ _ _ hle, ?_⟩
    cases hb : (r.getD []).any fun v => decide (codes x ≤ codes v) with
    | true =>
      simp only [List.any_eq_true, decide_eq_true_eq] at hb
      obtain ⟨v, hm, h⟩ := hb
      obtain ⟨vs, h1, h2⟩ := (hv v).mp hm
      exact .ge_yes a x vs v h1 h2 h
    | false =>
      simp only [List.any_eq_false, decide_eq_true_eq] at hb
      exact .ge_no a x fun vs v h1 h2 => hb v ((hv v).mpr ⟨vs, h1, h2⟩)
  | le a x ha hk =>
    obtain ⟨r, hr, hv⟩ := get_values hU he ha
    have hle : ∀ v ∈ r.getD [], v.le x = .ok (decide (codes v ≤ codes x)) := by
      intro v hm
      obtain ⟨vs, h1, h2⟩ := (hv v).mp hm
      obtain ⟨b, hb, hi⟩ := le_spec (hk vs v h1 h2)
      rw [hb]; congr 1; rw [Bool.eq_iff_iff]; simp [hi]
    refine ⟨_, by simp only [eval, hr, bind, Except.bind]; exact anyPy_ok _ _ _ hle, ?_⟩
    cases hb : (r.getD []).any fun v => decide (codes v ≤ codes x) with
    | true =>
      simp only [List.any_eq_true, decide_eq_true_eq] at hb
      obtain ⟨v, hm, h⟩ := hb
      obtain ⟨vs, h1, h2⟩ := (hv v).mp hm
      exact .le_yes a x vs v h1 h2 h
    | false =>
      simp only [List.any_eq_false, decide_eq_true_eq] at hb
      exact .le_no a x fun vs v h1 h2 => hb v ((hv v).mpr ⟨vs, h1, h2⟩)
  | and fs _ ih =>
    obtain ⟨b, hb, h1, h2⟩ := evalAll_spec fs ih
    refine ⟨b, by rw [eval]; exact hb, ?_⟩
    cases b with
    | true => exact .and_yes fs (h1 rfl)
    | false => obtain ⟨f, hf, h⟩ := h2 rfl; exact .and_no fs f hf h
  | or fs _ ih =>
    obtain ⟨b, hb, h1, h2⟩ := evalAny_spec fs ih
    refine ⟨b, by rw [eval]; exact hb, ?_⟩
    cases b with
    | false => exact .or_no fs (h1 rfl)
    | true => obtain ⟨f, hf, h⟩ := h2 rfl; exact .or_yes fs f hf h
  | not f _ ih =>
    obtain ⟨b, hb, h⟩ := ih
    exact ⟨!b, by simp [eval, hb, bind, Except.bind, pure, Except.pure], .not f b h⟩

/-- Evaluation gives an answer exactly when the denotation is that answer. -/
theorem eval_iff_partial (U : Unicode) (hU : Sane U) (e : Entry) (he : WellNamed e) (f : Filter) (hf : Testable e f)
    (b : Bool) : eval U e f = .ok b ↔ Holds U e f b := by
  obtain ⟨c, hc, hh⟩ := eval_correct_partial U hU e he f hf
  constructor
  · intro h; rw [hc] at h; cases h; exact hh
  · intro h; rw [hc, holds_unique f b c h hh]

/-- The connectives by themselves, whatever the parts: a conjunction that evaluates to true has only true parts. -/
theorem and_true (U : Unicode) (e : Entry) (fs : List Filter) :
    eval U e (.and fs) = .ok true ↔ ∀ f ∈ fs, eval U e f = .ok true := by
  rw [eval]
  induction fs with
  | nil => simp [evalAll]
  | cons f fs ih =>
    simp only [evalAll, bind, Except.bind, List.mem_cons, forall_eq_or_imp]
    cases hf : eval U e f with
    | error x => simp
    | ok b => cases b <;> simp [pure, Except.pure, ih]

/-- A disjunction that evaluates to false has only false parts. -/
theorem or_false (U : Unicode) (e : Entry) (fs : List Filter) :
    eval U e (.or fs) = .ok false ↔ ∀ f ∈ fs, eval U e f = .ok false := by
  rw [eval]
  induction fs with
  | nil => simp [evalAny]
  | cons f fs ih =>
    simp only [evalAny, bind, Except.bind, List.mem_cons, forall_eq_or_imp]
    cases hf : eval U e f with
    | error x => simp
    | ok b => cases b <;> simp [pure, Except.pure, ih]

theorem not_iff (U : Unicode) (e : Entry) (f : Filter) (b : Bool) :
    eval U e (.not f) = .ok b ↔ eval U e f = .ok (!b) := by
  simp only [eval, bind, Except.bind]
  cases hf : eval U e f with
  | error x => simp
  | ok c => cases b <;> cases c <;> simp [pure, Except.pure]

/-- Equality of ASCII values is equality of octets up to case, in whichever form they are stored or asserted. -/
theorem sameValue_ascii (U : Unicode) (hU : Sane U) (x y : PyStr) (hx : x.Ascii) (hy : y.Ascii) :
    SameValue U x y ↔ lowerBytes x.toBytes = lowerBytes y.toBytes := by
  unfold SameValue; rw [lower_toBytes hU hx, lower_toBytes hU hy]

def entry : Entry where
  dn := []
  attrs := [(.text "objectClass".toList, [.text "person".toList, .bytes [0x74, 0x6f, 0x70]]),
    (.bytes [0x63, 0x6e], [.bytes [0x42, 0x6f, 0x62], .bytes [0xff]])]

theorem entry_wellNamed : WellNamed entry where
  ascii := by
    intro k vs hm
    simp only [entry, List.mem_cons, List.not_mem_nil, _root_.or_false, Prod.mk.injEq] at hm
    rcases hm with ⟨rfl, _⟩ | ⟨rfl, _⟩ <;> decide +kernel
  distinct := by
    unfold SameName
    decide +kernel

/-- `(&(objectClass=TOP)(!(cn=bob*)))`-like filters are covered: text names against octet names, and so on. -/
example : WellNamed entry ∧ ∃ f, Testable entry f ∧ eval asciiTables entry f = .ok true ∧
    f = .and [.equality (.bytes "OBJECTCLASS".toUTF8.toList) (.text "TOP".toList), .not (.present (.text ['s', 'n'])),
      .or [.equality (.text ['C', 'N']) (.text ['b', 'O', 'b']), .greaterOrEqual (.text ['c', 'n']) (.bytes [])]] := by
  refine ⟨entry_wellNamed, _, ?_, by decide +kernel, rfl⟩
  refine .and _ ?_
  intro f hf
  simp only [List.mem_cons, List.not_mem_nil, _root_.or_false] at hf
  rcases hf with rfl | rfl | rfl
  · exact .equality _ _ (by decide +kernel) ⟨"TOP".toList, rfl⟩
  · exact .not _ (.present _ (by decide +kernel))
  · refine .or _ ?_
    intro f hf
    simp only [List.mem_cons, List.not_mem_nil, _root_.or_false] at hf
    rcases hf with rfl | rfl
    · exact .equality _ _ (by decide +kernel) ⟨['b', 'O', 'b'], rfl⟩
    · refine .ge _ _ (by decide +kernel) ?_
      rintro vs v ⟨k, hm, hn⟩ hv
      simp only [entry, List.mem_cons, List.not_mem_nil, _root_.or_false, Prod.mk.injEq] at hm
      rcases hm with ⟨rfl, rfl⟩ | ⟨rfl, rfl⟩
      · exact absurd hn (by unfold SameName; decide +kernel)
      · simp only [List.mem_cons, List.not_mem_nil, _root_.or_false] at hv
        rcases hv with rfl | rfl <;> rfl

/-- The full statement for equality tests. -/
def FullEquality : Prop :=
  ∀ (U : Unicode), Sane U → ∀ (e : Entry), WellNamed e → ∀ a x, PyStr.Ascii a →
    ∃ b, eval U e (.equality a x) = .ok b ∧ Holds U e (.equality a x) b

/-- A value that is not UTF-8 cannot be asserted, not even against an entry that has it. -/
theorem undecodable_raises : eval asciiTables entry (.equality (.bytes [0x63, 0x6e]) (.bytes [0xff])) =
    .error .unicodeError ∧ ¬ FullEquality := by
  have h : eval asciiTables entry (.equality (.bytes [0x63, 0x6e]) (.bytes [0xff])) = .error .unicodeError := by
    decide +kernel
  refine ⟨h, fun H => ?_⟩
  obtain ⟨b, hb, _⟩ := H asciiTables asciiTables_sane entry entry_wellNamed (.bytes [0x63, 0x6e]) (.bytes [0xff])
    (by decide +kernel)
  rw [h] at hb
  cases hb

/-- An entry that lists an attribute under both forms of its name hides the values of one of them. -/
theorem second_listing_hidden : ∃ (e : Entry) (a x : PyStr), Holds asciiTables e (.equality a x) true ∧
    eval asciiTables e (.equality a x) = .ok false := by
  refine ⟨⟨[], [(.text ['c', 'n'], [.text ['a']]), (.bytes [0x63, 0x6e], [.text ['b']])]⟩, .text ['c', 'n'], .text ['b'],
    .equality_yes _ _ [.text ['b']] (.text ['b']) ⟨.bytes [0x63, 0x6e], by simp, by unfold SameName; decide +kernel⟩
      (by simp) rfl, by decide +kernel⟩

end Verif.C17
