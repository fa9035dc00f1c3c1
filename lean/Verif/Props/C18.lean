import Verif.Lemmas.Substring
import Verif.Props.C17
/-
C18  Substring filters match exactly the values with that shape.

Full statement: `initial*any1*...*anyN*final` matches an entry iff some value of the attribute has that shape
(`Spec.Shape.Fits`).  It is false in both directions: overlapping pieces are accepted (`overlap_accepted`), and with a
final piece the code cuts off as many characters as the *first* piece has (`correct_rejected`, `wrong_accepted`).
Proved: exactness without `any` pieces, and with one `any` piece when no final piece is given or it is as long as the
first piece (`exact_partial`); no misses when the first piece is no longer than the final one (`complete_partial`);
and what any match guarantees (`necessary`).
-/
namespace Verif.C18
open Verif.Match Verif.Spec PyStr

/-- The first piece of the filter. -/
def first (s : Shape) : PyStr := s.strings.headD (.bytes [])

/-- All the strings the evaluation of the filter deals with. -/
def involved (e : Entry) (a : PyStr) (s : Shape) (x : PyStr) : Prop := x ∈ s.strings ∨ ∃ vs, HasAttr e a vs ∧ x ∈ vs

/-- The evaluator answers by testing every value of the attribute. -/
theorem eval_substrings {U : Unicode} (hU : Sane U) {e : Entry} (he : WellNamed e) {a : PyStr} (ha : a.Ascii) (s : Shape)
    (xs : List PyStr) (hx : Uniform U xs) (hi : ∀ x, involved e a s x → x ∈ xs) :
    (∀ x ∈ xs, (lowCodes U x).length = x.len) ∧
    ∃ b, eval U e (.substrings a s.pieces) = .ok b ∧ (b = true ↔ ∃ vs v, HasAttr e a vs ∧ v ∈ vs ∧
      matchOne (s.initial.map (lowCodes U)) (s.anys.map (lowCodes U)) (s.final.map (lowCodes U)) (lowCodes U v) = true) := by
  obtain ⟨P, hP, hall⟩ : ∃ P, Good U P ∧ ∀ x ∈ xs, P x := by
    cases hx with
    | bytes h => exact ⟨_, good_bytes U, h⟩
    | text A f hA h => exact ⟨_, good_text hA, h⟩
  refine ⟨fun x h => hP.len x (hall x h), ?_⟩
  obtain ⟨r, hr, hs⟩ := get_spec hU he ha
  cases r with
  | none =>
    refine ⟨false, by simp [eval, hr, bind, Except.bind, pure, Except.pure], ?_⟩
    simp only [Bool.false_eq_true, false_iff]
    rintro ⟨vs, v, h, _⟩
    have := (hs vs).mpr h
    cases this
  | some vs =>
    have hv := (hs vs).mp rfl
    have hm := matchPieces_ok hP s (fun x h => hall x (hi x (.inl h))) vs (fun x h => hall x (hi x (.inr ⟨vs, hv, h⟩)))
    refine ⟨_, by simp only [eval, hr, bind, Except.bind]; exact hm, ?_⟩
    rw [List.any_eq_true]
    constructor
    · rintro ⟨v, h1, h2⟩; exact ⟨vs, v, hv, h1, h2⟩
    · rintro ⟨ws, v, h1, h2, h3⟩
      rw [attr_unique he h1 hv] at h2
      exact ⟨v, h2, h3⟩

theorem fits_iff (U : Unicode) (s : Shape) (v : PyStr) : s.Fits U v ↔
    FitsOne (s.initial.map (lowCodes U)) (s.anys.map (lowCodes U)) (s.final.map (lowCodes U)) (lowCodes U v) := Iff.rfl

theorem first_length {U : Unicode} (s : Shape) (f : PyStr) (hf : s.final = some f)
    (h : ∀ x ∈ s.strings, (lowCodes U x).length = x.len) :
    (firstPiece (s.initial.map (lowCodes U)) (s.anys.map (lowCodes U)) (s.final.map (lowCodes U))).length = (first s).len := by
  obtain ⟨i, as, g⟩ := s
  simp only at hf
  subst hf
  cases i with
  | some i => exact h i (by simp [Shape.strings])
  | none =>
    cases as with
    | cons a as => exact h a (by simp [Shape.strings])
    | nil => exact h f (by simp [Shape.strings])

/-- The conditions under which the code is exact. -/
def Simple (s : Shape) : Prop :=
  s.anys = [] ∨ ∃ p, s.anys = [p] ∧ ∀ f, s.final = some f → 0 < f.len ∧ (first s).len = f.len

theorem exact_partial (U : Unicode) (hU : Sane U) (e : Entry) (he : WellNamed e) (a : PyStr) (ha : a.Ascii) (s : Shape)
    (xs : List PyStr) (hx : Uniform U xs) (hi : ∀ x, involved e a s x → x ∈ xs) (hs : Simple s) :
    ∃ b, eval U e (.substrings a s.pieces) = .ok b ∧ (b = true ↔ ∃ vs v, HasAttr e a vs ∧ v ∈ vs ∧ s.Fits U v) := by
  obtain ⟨hl, b, hb, hiff⟩ := eval_substrings hU he ha s xs hx hi
  refine ⟨b, hb, hiff.trans ?_⟩
  have hlen : ∀ x ∈ s.strings, (lowCodes U x).length = x.len := fun x h => hl x (hi x (.inl h))
  have key : ∀ v, matchOne (s.initial.map (lowCodes U)) (s.anys.map (lowCodes U)) (s.final.map (lowCodes U)) (lowCodes U v) =
      true ↔ s.Fits U v := by
    intro v
    rw [fits_iff]
    rcases hs with hs | ⟨p, hs, hf⟩
    · exact ⟨matchOne_sound (.inl (by simp [hs])), matchOne_complete (.inl (by simp [hs]))⟩
    · have hfin : ∀ y, s.final.map (lowCodes U) = some y → 0 < y.length ∧
          (firstPiece (s.initial.map (lowCodes U)) (s.anys.map (lowCodes U)) (s.final.map (lowCodes U))).length = y.length := by
        intro y hy
        cases hfn : s.final with
        | none => rw [hfn] at hy; cases hy
        | some f =>
          have hfy : y = lowCodes U f := by rw [hfn] at hy; cases hy; rfl
          subst hfy
          rw [← hfn, first_length s f hfn hlen, hlen f (by simp [Shape.strings, hfn])]
          exact hf f hfn
      constructor
      · refine matchOne_sound (.inr ⟨lowCodes U p, by simp [hs], fun y hy => ?_⟩)
        exact Nat.le_of_eq (hfin y hy).2.symm
      · refine matchOne_complete (.inr fun y hy => ?_)
        exact ⟨by rw [(hfin y hy).2]; exact (hfin y hy).1, Nat.le_of_eq (hfin y hy).2⟩
  simp only [key]

/-- No value with the shape is missed, if the first piece is not empty and no longer than the final one. -/
theorem complete_partial (U : Unicode) (hU : Sane U) (e : Entry) (he : WellNamed e) (a : PyStr) (ha : a.Ascii) (s : Shape)
    (xs : List PyStr) (hx : Uniform U xs) (hi : ∀ x, involved e a s x → x ∈ xs)
    (hs : ∀ f, s.final = some f → 0 < (first s).len ∧ (first s).len ≤ f.len)
    (vs : List PyStr) (v : PyStr) (hv : HasAttr e a vs) (hm : v ∈ vs) (hfit : s.Fits U v) :
    eval U e (.substrings a s.pieces) = .ok true := by
  obtain ⟨hl, b, hb, hiff⟩ := eval_substrings hU he ha s xs hx hi
  have hlen : ∀ x ∈ s.strings, (lowCodes U x).length = x.len := fun x h => hl x (hi x (.inl h))
  rw [hb, hiff.mpr ⟨vs, v, hv, hm, matchOne_complete (.inr fun y hy => ?_) ((fits_iff U s v).mp hfit)⟩]
  cases hfn : s.final with
  | none => rw [hfn] at hy; cases hy
  | some f =>
    have hfy : y = lowCodes U f := by rw [hfn] at hy; cases hy; rfl
    subst hfy
    rw [← hfn, first_length s f hfn hlen, hlen f (by simp [Shape.strings, hfn])]
    exact hs f hfn

/-- What a match always guarantees: some value begins and ends as asked and contains every other piece. -/
theorem necessary (U : Unicode) (hU : Sane U) (e : Entry) (he : WellNamed e) (a : PyStr) (ha : a.Ascii) (s : Shape)
    (xs : List PyStr) (hx : Uniform U xs) (hi : ∀ x, involved e a s x → x ∈ xs)
    (h : eval U e (.substrings a s.pieces) = .ok true) :
    ∃ vs v, HasAttr e a vs ∧ v ∈ vs ∧ (∀ p, s.initial = some p → lowCodes U p <+: lowCodes U v) ∧
      (∀ f, s.final = some f → lowCodes U f <:+ lowCodes U v) ∧ ∀ p ∈ s.anys, lowCodes U p <:+: lowCodes U v := by
  obtain ⟨_, b, hb, hiff⟩ := eval_substrings hU he ha s xs hx hi
  rw [h] at hb
  cases hb
  obtain ⟨vs, v, h1, h2, h3⟩ := hiff.mp rfl
  obtain ⟨n1, n2, n3⟩ := matchOne_necessary h3
  refine ⟨vs, v, h1, h2, ?_, ?_, ?_⟩
  · intro p hp; rw [hp] at n1; exact n1
  · intro f hf; rw [hf] at n2; exact n2
  · intro p hp; exact n3 _ (List.mem_map_of_mem hp)

def cn : PyStr := .bytes [0x63, 0x6e]
def oct (s : String) : PyStr := .bytes (s.toList.map fun c => UInt8.ofNat c.toNat)
def one (v : String) : Entry := ⟨[], [(cn, [oct v])]⟩

theorem one_wellNamed (v : String) : WellNamed (one v) where
  ascii := by
    intro k vs hm
    simp only [one, List.mem_cons, List.not_mem_nil, or_false, Prod.mk.injEq] at hm
    rw [hm.1]; decide
  distinct := List.pairwise_singleton _ _

theorem one_has (v : String) (vs : List PyStr) (h : HasAttr (one v) cn vs) : vs = [oct v] := by
  obtain ⟨k, hm, _⟩ := h
  simp only [one, List.mem_cons, List.not_mem_nil, or_false, Prod.mk.injEq] at hm
  exact hm.2

/-- `bo*B Sm*th` on "Bob Smith". -/
def sample : Shape := ⟨some (oct "bo"), [oct "B Sm"], some (oct "th")⟩

example : WellNamed (one "Bob Smith") ∧ cn.Ascii ∧ Simple sample ∧ (∃ xs, Uniform asciiTables xs ∧
    ∀ x, involved (one "Bob Smith") cn sample x → x ∈ xs) ∧
    eval asciiTables (one "Bob Smith") (.substrings cn sample.pieces) = .ok true := by
  refine ⟨one_wellNamed _, by decide, .inr ⟨_, rfl, ?_⟩, ⟨[oct "bo", oct "B Sm", oct "th", oct "Bob Smith"], .bytes ?_, ?_⟩,
    by decide +kernel⟩
  · intro f hf; cases hf; decide +kernel
  · intro x hx
    simp only [List.mem_cons, List.not_mem_nil, or_false] at hx
    rcases hx with rfl | rfl | rfl | rfl <;> exact ⟨_, rfl⟩
  · rintro x (hx | ⟨vs, h, hx⟩)
    · simp only [sample, Shape.strings, Option.toList_some, List.mem_append, List.mem_cons, List.not_mem_nil, or_false] at hx
      rcases hx with (rfl | rfl) | rfl <;> simp
    · rw [one_has _ _ h] at hx; simp at hx; simp [hx]

/-- The hypothesis of `exact_partial` on text is met by ASCII text. -/
example : Uniform asciiTables [.text ['a'], .text ['B']] :=
  .text (fun _ => True) Char.toLower (fun _ _ => rfl) (by
    intro x hx
    simp only [List.mem_cons, List.not_mem_nil, or_false] at hx
    rcases hx with rfl | rfl <;> exact ⟨_, rfl, fun _ _ => trivial⟩)

/-- The full statement. -/
def FullSubstrings : Prop :=
  ∀ (U : Unicode), Sane U → ∀ (e : Entry), WellNamed e → ∀ (a : PyStr), a.Ascii → ∀ (s : Shape) (xs : List PyStr),
    Uniform U xs → (∀ x, involved e a s x → x ∈ xs) →
    ∃ b, eval U e (.substrings a s.pieces) = .ok b ∧ (b = true ↔ ∃ vs v, HasAttr e a vs ∧ v ∈ vs ∧ s.Fits U v)

/-- `*a*a*` matches "a". -/
theorem overlap_accepted : eval asciiTables (one "a") (.substrings cn (Shape.pieces ⟨none, [oct "a", oct "a"], none⟩)) =
    .ok true ∧ ¬ FullSubstrings := by
  have h : eval asciiTables (one "a") (.substrings cn (Shape.pieces ⟨none, [oct "a", oct "a"], none⟩)) = .ok true := by
    decide +kernel
  refine ⟨h, fun H => ?_⟩
  obtain ⟨b, hb, hiff⟩ := H asciiTables asciiTables_sane (one "a") (one_wellNamed _) cn (by decide)
    ⟨none, [oct "a", oct "a"], none⟩ [oct "a"] (.bytes (by intro x hx; simp at hx; exact ⟨_, hx⟩)) (by
      rintro x (hx | ⟨vs, h, hx⟩)
      · simp [Shape.strings] at hx; simp [hx]
      · rw [one_has _ _ h] at hx; exact hx)
  rw [h] at hb
  cases hb
  obtain ⟨vs, v, hv, hm, mid, he, ho⟩ := hiff.mp rfl
  rw [one_has _ _ hv] at hm
  simp only [List.mem_singleton] at hm
  subst hm
  have hl : (lowCodes asciiTables (oct "a")).length = 1 := by decide +kernel
  have hmid : mid.length ≤ 1 := by
    have := congrArg List.length he
    simp only [List.length_append, hl] at this
    omega
  generalize hp : lowCodes asciiTables (oct "a") = q at *
  simp only [List.map_cons, List.map_nil, hp] at ho
  cases ho with
  | cons g _ _ m ho =>
    cases ho with
    | cons g2 _ _ m2 _ => simp only [List.length_append] at hmid; omega

/-- `ab*X*c` misses "abXc". -/
theorem correct_rejected : eval asciiTables (one "abXc")
      (.substrings cn (Shape.pieces ⟨some (oct "ab"), [oct "X"], some (oct "c")⟩)) = .ok false ∧
    Shape.Fits asciiTables ⟨some (oct "ab"), [oct "X"], some (oct "c")⟩ (oct "abXc") := by
  refine ⟨by decide +kernel, ⟨lowCodes asciiTables (oct "X"), by decide +kernel, ?_⟩⟩
  exact InOrder.cons [] _ [] [] (.nil [])

/-- `a*bc*bcd` matches "abcd". -/
theorem wrong_accepted : eval asciiTables (one "abcd")
      (.substrings cn (Shape.pieces ⟨some (oct "a"), [oct "bc"], some (oct "bcd")⟩)) = .ok true ∧
    ¬ Shape.Fits asciiTables ⟨some (oct "a"), [oct "bc"], some (oct "bcd")⟩ (oct "abcd") := by
  refine ⟨by decide +kernel, ?_⟩
  rintro ⟨mid, he, ho⟩
  have hl : (lowCodes asciiTables (oct "abcd")).length = 4 := by decide +kernel
  have h1 : (lowCodes asciiTables (oct "a")).length = 1 := by decide +kernel
  have h2 : (lowCodes asciiTables (oct "bc")).length = 2 := by decide +kernel
  have h3 : (lowCodes asciiTables (oct "bcd")).length = 3 := by decide +kernel
  have := congrArg List.length he
  simp only [Option.map_some, Option.getD_some, List.length_append, hl, h1, h3] at this
  simp only [List.map_cons, List.map_nil] at ho
  cases ho with
  | cons g _ _ m _ => simp only [List.length_append, h2] at this; omega

/-- Mixing text and octets raises. -/
theorem mixed_kinds_raise : eval asciiTables (one "a") (.substrings cn [.any (.text ['a'])]) = .error .typeError := by
  decide +kernel

end Verif.C18
