import Verif.Spec.Substring
import Verif.Lemmas.Match
/-
Substring matching on lists of numbers, and its relation to the model.
-/
namespace Verif.Match
open Verif.Spec PyStr

set_option linter.unusedSectionVars false

section Lists
variable {α : Type} [BEq α] [LawfulBEq α]

theorem findIn_some {t s : List α} {i : Nat} (h : findIn t s = some i) :
    ∃ g m, s = g ++ t ++ m ∧ g.length = i := by
  induction s generalizing i with
  | nil =>
    simp only [findIn] at h
    split at h
    · rename_i hp; cases h
      obtain ⟨m, hm⟩ := List.isPrefixOf_iff_prefix.mp hp
      exact ⟨[], m, by simp [hm], rfl⟩
    · cases h
  | cons a s ih =>
    simp only [findIn] at h
    split at h
    · rename_i hp; cases h
      obtain ⟨m, hm⟩ := List.isPrefixOf_iff_prefix.mp hp
      exact ⟨[], m, by simp [hm], rfl⟩
    · cases hf : findIn t s with
      | none => rw [hf] at h; cases h
      | some j =>
        rw [hf] at h; cases h
        obtain ⟨g, m, hm, hg⟩ := ih hf
        exact ⟨a :: g, m, by simp [hm], by simp [hg]⟩

/-- The first occurrence is no later than any other. -/
theorem findIn_le (t g m : List α) : ∃ i, findIn t (g ++ t ++ m) = some i ∧ i ≤ g.length := by
  induction g with
  | nil =>
    refine ⟨0, ?_, by simp⟩
    have hp : t.isPrefixOf (t ++ m) = true := List.isPrefixOf_iff_prefix.mpr ⟨m, rfl⟩
    cases hx : t ++ m with
    | nil => rw [hx] at hp; simp only [List.nil_append, hx, findIn, hp, if_true]
    | cons a s => rw [hx] at hp; simp only [List.nil_append, hx, findIn, hp, if_true]
  | cons a g ih =>
    obtain ⟨i, hi, hle⟩ := ih
    show ∃ i, findIn t (a :: (g ++ t ++ m)) = some i ∧ _
    by_cases hp : t.isPrefixOf (a :: (g ++ t ++ m)) = true
    · exact ⟨0, by simp only [findIn, hp, if_true], by simp⟩
    · exact ⟨i + 1, by simp only [findIn]; rw [if_neg hp, hi]; rfl, by simp; omega⟩

/-- The loop on one value. -/
def anyOne : List (List α) → List α → Bool
  | [], _ => true
  | p :: ps, v =>
    match findIn p v with
    | some i => anyOne ps (v.drop i)
    | none => false

theorem inOrder_prepend {ps : List (List α)} {m : List α} (h : InOrder ps m) (g : List α) : InOrder ps (g ++ m) := by
  cases h with
  | nil => exact .nil _
  | cons gap p ps m h => simpa using InOrder.cons (g ++ gap) p ps m h

theorem inOrder_append {ps : List (List α)} {m : List α} (h : InOrder ps m) (g : List α) : InOrder ps (m ++ g) := by
  induction h with
  | nil => exact .nil _
  | cons gap p ps m _ ih => simpa using InOrder.cons gap p ps (m ++ g) ih

/-- The loop misses nothing. -/
theorem anyOne_complete {ps : List (List α)} {v : List α} (h : InOrder ps v) : anyOne ps v = true := by
  induction ps generalizing v with
  | nil => rfl
  | cons p ps ih =>
    cases h with
    | cons gap _ _ m h =>
      obtain ⟨i, hi, hle⟩ := findIn_le p gap m
      simp only [anyOne, hi]
      rw [List.append_assoc, List.drop_append_of_le_length hle]
      exact ih (inOrder_prepend (inOrder_prepend h p) _)

/-- With a single piece the loop is exact. -/
theorem anyOne_single (p v : List α) : anyOne [p] v = true ↔ InOrder [p] v := by
  constructor
  · intro h
    simp only [anyOne] at h
    split at h
    · rename_i i hi
      obtain ⟨g, m, hm, _⟩ := findIn_some hi
      rw [hm]; exact .cons g p [] m (.nil m)
    · cases h
  · exact anyOne_complete

/-- What the loop accepts contains every piece. -/
theorem anyOne_infix {ps : List (List α)} {v : List α} (h : anyOne ps v = true) : ∀ p ∈ ps, p <:+: v := by
  induction ps generalizing v with
  | nil => simp
  | cons p ps ih =>
    simp only [anyOne] at h
    split at h
    · rename_i i hi
      intro q hq
      rcases List.mem_cons.mp hq with rfl | hq
      · obtain ⟨g, m, hm, _⟩ := findIn_some hi
        exact ⟨g, m, hm.symm⟩
      · exact (ih h q hq).trans (List.drop_suffix i v).isInfix
    · cases h

/-- The part after the initial piece, on one value; `n` is the number of elements cut off with the final piece. -/
def restOne (anys : List (List α)) (final : Option (List α)) (n : Nat) (v : List α) : Bool :=
  match final with
  | none => anyOne anys v
  | some f => f.isSuffixOf v && anyOne anys (sliceBack n v)

/-- The whole branch on one value. -/
def matchOne (initial : Option (List α)) (anys : List (List α)) (final : Option (List α)) (v : List α) : Bool :=
  let p := initial.getD []
  let first := initial.getD (anys.headD (final.getD []))
  p.isPrefixOf v && restOne anys final first.length (v.drop p.length)

theorem sliceBack_prefix (n : Nat) (l : List α) : sliceBack n l <+: l := by
  unfold sliceBack; split
  · exact List.nil_prefix
  · exact List.take_prefix _ _

theorem sliceBack_append {n : Nat} {m f : List α} (hn : 0 < n) (h : n ≤ f.length) :
    ∃ g, sliceBack n (m ++ f) = m ++ g := by
  unfold sliceBack
  rw [if_neg (by omega)]
  refine ⟨f.take (f.length - n), ?_⟩
  rw [List.length_append, Nat.add_sub_assoc h, List.take_append, List.take_of_length_le (by omega)]
  congr 2; omega

theorem sliceBack_short {n : Nat} {m f : List α} (h : f.length ≤ n) : sliceBack n (m ++ f) <+: m := by
  unfold sliceBack
  split
  · exact List.nil_prefix
  · rw [List.length_append, List.take_append_of_le_length (by omega)]
    exact List.take_prefix _ _

theorem inOrder_mono {ps : List (List α)} {m v : List α} (h : InOrder ps m) (hp : m <+: v) : InOrder ps v := by
  obtain ⟨g, rfl⟩ := hp; exact inOrder_append h g

/-- The shape on lists. -/
def FitsOne (initial : Option (List α)) (anys : List (List α)) (final : Option (List α)) (v : List α) : Prop :=
  ∃ mid, v = initial.getD [] ++ mid ++ final.getD [] ∧ InOrder anys mid

/-- The first piece of the filter. -/
def firstPiece (initial : Option (List α)) (anys : List (List α)) (final : Option (List α)) : List α :=
  initial.getD (anys.headD (final.getD []))

theorem matchOne_complete {i : Option (List α)} {as : List (List α)} {f : Option (List α)} {v : List α}
    (hl : as = [] ∨ ∀ x, f = some x → 0 < (firstPiece i as f).length ∧ (firstPiece i as f).length ≤ x.length)
    (h : FitsOne i as f v) : matchOne i as f v = true := by
  obtain ⟨mid, rfl, ho⟩ := h
  have e : ((i.getD [] ++ mid ++ f.getD []).drop (i.getD []).length) = mid ++ f.getD [] := by
    rw [List.append_assoc, List.drop_left]
  unfold matchOne
  simp only
  rw [e, Bool.and_eq_true]
  refine ⟨List.isPrefixOf_iff_prefix.mpr ⟨mid ++ f.getD [], by simp⟩, ?_⟩
  cases f with
  | none => simpa [restOne] using anyOne_complete ho
  | some x =>
    rw [restOne, Bool.and_eq_true]
    refine ⟨List.isSuffixOf_iff_suffix.mpr ⟨mid, rfl⟩, ?_⟩
    rcases hl with rfl | hl
    · rfl
    · obtain ⟨h1, h2⟩ := hl x rfl
      obtain ⟨g, hg⟩ := sliceBack_append (m := mid) h1 h2
      have : sliceBack (i.getD (as.headD x)).length (mid ++ x) = mid ++ g := hg
      show anyOne as (sliceBack (i.getD (as.headD x)).length (mid ++ x)) = true
      rw [this]
      exact anyOne_complete (inOrder_append ho g)

theorem matchOne_sound {i : Option (List α)} {as : List (List α)} {f : Option (List α)} {v : List α}
    (hl : as = [] ∨ ∃ a, as = [a] ∧ ∀ x, f = some x → x.length ≤ (firstPiece i as f).length)
    (h : matchOne i as f v = true) : FitsOne i as f v := by
  unfold matchOne at h
  simp only [Bool.and_eq_true] at h
  obtain ⟨hp, h⟩ := h
  obtain ⟨r, rfl⟩ := List.isPrefixOf_iff_prefix.mp hp
  rw [List.drop_left] at h
  cases f with
  | none =>
    refine ⟨r, by simp, ?_⟩
    rcases hl with rfl | ⟨a, rfl, _⟩
    · exact .nil _
    · exact (anyOne_single a r).mp h
  | some x =>
    rw [restOne, Bool.and_eq_true] at h
    obtain ⟨mid, rfl⟩ := List.isSuffixOf_iff_suffix.mp h.1
    refine ⟨mid, by simp, ?_⟩
    rcases hl with rfl | ⟨a, rfl, hl⟩
    · exact .nil _
    · exact inOrder_mono ((anyOne_single a _).mp h.2) (sliceBack_short (hl x rfl))

theorem matchOne_necessary {i : Option (List α)} {as : List (List α)} {f : Option (List α)} {v : List α}
    (h : matchOne i as f v = true) : i.getD [] <+: v ∧ f.getD [] <:+ v ∧ ∀ a ∈ as, a <:+: v := by
  unfold matchOne at h
  simp only [Bool.and_eq_true] at h
  obtain ⟨hp, h⟩ := h
  refine ⟨List.isPrefixOf_iff_prefix.mp hp, ?_⟩
  have hd : v.drop (i.getD []).length <:+ v := List.drop_suffix _ _
  cases f with
  | none => exact ⟨List.nil_suffix, fun a ha => (anyOne_infix h a ha).trans hd.isInfix⟩
  | some x =>
    rw [restOne, Bool.and_eq_true] at h
    exact ⟨(List.isSuffixOf_iff_suffix.mp h.1).trans hd,
      fun a ha => ((anyOne_infix h.2 a ha).trans (sliceBack_prefix _ _).isInfix).trans hd.isInfix⟩

end Lists

/-! ### From strings to lists of numbers -/

theorem isPrefixOf_map {α β : Type} [BEq α] [LawfulBEq α] [BEq β] [LawfulBEq β] {f : α → β}
    (hf : ∀ a b, f a = f b → a = b) (t s : List α) : (t.map f).isPrefixOf (s.map f) = t.isPrefixOf s := by
  induction t generalizing s with
  | nil => simp
  | cons a t ih =>
    cases s with
    | nil => simp
    | cons b s =>
      simp only [List.map_cons, List.isPrefixOf_cons_cons, ih]
      congr 1
      rw [Bool.eq_iff_iff, beq_iff_eq, beq_iff_eq]
      exact ⟨hf a b, fun h => h ▸ rfl⟩

theorem isSuffixOf_map {α β : Type} [BEq α] [LawfulBEq α] [BEq β] [LawfulBEq β] {f : α → β}
    (hf : ∀ a b, f a = f b → a = b) (t s : List α) : (t.map f).isSuffixOf (s.map f) = t.isSuffixOf s := by
  unfold List.isSuffixOf
  rw [← List.map_reverse, ← List.map_reverse, isPrefixOf_map hf]

theorem findIn_map {α β : Type} [BEq α] [LawfulBEq α] [BEq β] [LawfulBEq β] {f : α → β}
    (hf : ∀ a b, f a = f b → a = b) (t s : List α) : findIn (t.map f) (s.map f) = findIn t s := by
  induction s with
  | nil =>
    simp only [List.map_nil, findIn]
    rw [show ([] : List β) = ([] : List α).map f from rfl, isPrefixOf_map hf]
  | cons a s ih =>
    simp only [List.map_cons, findIn, ih]
    rw [← List.map_cons, isPrefixOf_map hf]

theorem char_inj (a b : Char) (h : a.toNat = b.toNat) : a = b := Char.ext (UInt32.toNat_inj.mp h)
theorem byte_inj (a b : UInt8) (h : a.toNat = b.toNat) : a = b := UInt8.toNat_inj.mp h

/-- Strings on which the string operations agree with operations on `lowCodes`; closed under cutting. -/
structure Good (U : Unicode) (P : PyStr → Prop) : Prop where
  drop : ∀ x n, P x → P (x.dropFront n) ∧ lowCodes U (x.dropFront n) = (lowCodes U x).drop n
  back : ∀ x n, P x → P (x.dropBack n) ∧ lowCodes U (x.dropBack n) = sliceBack n (lowCodes U x)
  len : ∀ x, P x → (lowCodes U x).length = x.len
  starts : ∀ x p, P x → P p → (x.lower U).startsWith (p.lower U) = .ok ((lowCodes U p).isPrefixOf (lowCodes U x))
  ends : ∀ x p, P x → P p → (x.lower U).endsWith (p.lower U) = .ok ((lowCodes U p).isSuffixOf (lowCodes U x))
  find : ∀ x p, P x → P p → (x.lower U).find (p.lower U) = .ok (findIn (lowCodes U p) (lowCodes U x))

theorem sliceBack_map {α β : Type} (f : α → β) (n : Nat) (l : List α) : sliceBack n (l.map f) = (sliceBack n l).map f := by
  unfold sliceBack; split
  · rfl
  · simp [List.map_take]

theorem good_bytes (U : Unicode) : Good U (fun x => ∃ b, x = .bytes b) where
  drop := by
    rintro _ n ⟨b, rfl⟩
    exact ⟨⟨_, rfl⟩, by simp [lowCodes, dropFront, lower, lowerBytes, codes, List.map_drop]⟩
  back := by
    rintro _ n ⟨b, rfl⟩
    exact ⟨⟨_, rfl⟩, by simp [lowCodes, dropBack, lower, lowerBytes, codes, ← sliceBack_map]⟩
  len := by rintro _ ⟨b, rfl⟩; simp [lowCodes, lower, lowerBytes, codes, len]
  starts := by
    rintro _ _ ⟨b, rfl⟩ ⟨c, rfl⟩
    simp only [lower, startsWith, lowCodes, codes, isPrefixOf_map byte_inj]
  ends := by
    rintro _ _ ⟨b, rfl⟩ ⟨c, rfl⟩
    simp only [lower, endsWith, lowCodes, codes, isSuffixOf_map byte_inj]
  find := by
    rintro _ _ ⟨b, rfl⟩ ⟨c, rfl⟩
    simp only [lower, PyStr.find, lowCodes, codes, findIn_map byte_inj]

theorem good_text {U : Unicode} {A : Char → Prop} {f : Char → Char}
    (h : ∀ s : Str, (∀ c ∈ s, A c) → U.lower s = s.map f) : Good U (fun x => ∃ s : Str, x = .text s ∧ ∀ c ∈ s, A c) where
  drop := by
    rintro _ n ⟨s, rfl, hs⟩
    have hd : ∀ c ∈ s.drop n, A c := fun c hc => hs c (List.mem_of_mem_drop hc)
    exact ⟨⟨_, rfl, hd⟩, by simp [lowCodes, dropFront, lower, codes, h _ hd, h _ hs, List.map_drop]⟩
  back := by
    rintro _ n ⟨s, rfl, hs⟩
    have hd : ∀ c ∈ sliceBack n s, A c := fun c hc => hs c ((sliceBack_prefix n s).subset hc)
    exact ⟨⟨_, rfl, hd⟩, by simp [lowCodes, dropBack, lower, codes, h _ hd, h _ hs, ← sliceBack_map]⟩
  len := by rintro _ ⟨s, rfl, hs⟩; simp [lowCodes, lower, codes, len, h _ hs]
  starts := by
    rintro _ _ ⟨b, rfl, _⟩ ⟨c, rfl, _⟩
    simp only [lower, startsWith, lowCodes, codes, isPrefixOf_map char_inj]
  ends := by
    rintro _ _ ⟨b, rfl, _⟩ ⟨c, rfl, _⟩
    simp only [lower, endsWith, lowCodes, codes, isSuffixOf_map char_inj]
  find := by
    rintro _ _ ⟨b, rfl, _⟩ ⟨c, rfl, _⟩
    simp only [lower, PyStr.find, lowCodes, codes, findIn_map char_inj]

theorem filterPy_ok {α : Type} (p : α → Py Bool) (q : α → Bool) (l : List α) (h : ∀ x ∈ l, p x = .ok (q x)) :
    filterPy p l = .ok (l.filter q) := by
  induction l with
  | nil => rfl
  | cons a l ih =>
    simp only [filterPy, h a (by simp), ih (fun x hx => h x (by simp [hx])), bind, Except.bind, List.filter_cons]
    rfl

section
variable {U : Unicode} {P : PyStr → Prop} (hP : Good U P)
include hP

theorem fromAny_ok {p : PyStr} (hp : P p) (vs : List PyStr) (hv : ∀ v ∈ vs, P v) (ps : List (List Nat)) :
    ∃ r, fromAny U p vs = .ok r ∧ (∀ v ∈ r, P v) ∧
      (r.any fun v => anyOne ps (lowCodes U v)) = vs.any fun v => anyOne (lowCodes U p :: ps) (lowCodes U v) := by
  induction vs with
  | nil => exact ⟨[], rfl, by simp, rfl⟩
  | cons v vs ih =>
    obtain ⟨r, hr, h1, h2⟩ := ih (fun x hx => hv x (by simp [hx]))
    have hv0 := hv v (by simp)
    cases hf : findIn (lowCodes U p) (lowCodes U v) with
    | some i =>
      refine ⟨v.dropFront i :: r, ?_, ?_, ?_⟩
      · simp only [fromAny, hP.find v p hv0 hp, hf, hr, bind, Except.bind]; rfl
      · intro x hx
        rcases List.mem_cons.mp hx with rfl | hx
        · exact (hP.drop v i hv0).1
        · exact h1 x hx
      · simp only [List.any_cons, h2, anyOne, hf, (hP.drop v i hv0).2]
    | none =>
      refine ⟨r, ?_, h1, ?_⟩
      · simp only [fromAny, hP.find v p hv0 hp, hf, hr, bind, Except.bind]; rfl
      · simp only [List.any_cons, h2, anyOne, hf, Bool.false_or]

theorem anyLoop_ok (as : List PyStr) (ha : ∀ a ∈ as, P a) (vs : List PyStr) (hv : ∀ v ∈ vs, P v) :
    anyLoop U (as.map .any) vs = .ok (vs.any fun v => anyOne (as.map (lowCodes U)) (lowCodes U v)) := by
  induction as generalizing vs with
  | nil => cases vs <;> simp [anyLoop, anyOne]
  | cons a as ih =>
    cases vs with
    | nil => rfl
    | cons v vs =>
      obtain ⟨r, hr, h1, h2⟩ := fromAny_ok hP (ha a (by simp)) (v :: vs) hv (as.map (lowCodes U))
      simp only [List.map_cons, anyLoop, hr, bind, Except.bind]
      rw [ih (fun x hx => ha x (by simp [hx])) r h1, h2]

theorem stripFinal_ok {first p : PyStr} (hf : P first) (hp : P p) (as : List PyStr) (ha : ∀ a ∈ as, P a)
    (vs : List PyStr) (hv : ∀ v ∈ vs, P v) :
    (do let vs ← stripFinal U first p vs; anyLoop U (as.map .any) vs) =
      .ok (vs.any fun v => (lowCodes U p).isSuffixOf (lowCodes U v) &&
        anyOne (as.map (lowCodes U)) (sliceBack (lowCodes U first).length (lowCodes U v))) := by
  simp only [stripFinal, bind, Except.bind, pure, Except.pure]
  rw [filterPy_ok _ (fun v => (lowCodes U p).isSuffixOf (lowCodes U v)) vs (fun v h => hP.ends v p (hv v h) hp)]
  simp only
  rw [anyLoop_ok hP as ha _ (by
    intro x hx
    simp only [List.mem_map, List.mem_filter] at hx
    obtain ⟨y, ⟨hy, _⟩, rfl⟩ := hx
    exact (hP.back y _ (hv y hy)).1)]
  congr 1
  rw [List.any_map, List.any_filter]
  rw [Bool.eq_iff_iff, List.any_eq_true, List.any_eq_true]
  constructor
  · rintro ⟨v, hm, h⟩
    refine ⟨v, hm, ?_⟩
    simp only [Function.comp, (hP.back v _ (hv v hm)).2] at h
    rw [hP.len first hf]; exact h
  · rintro ⟨v, hm, h⟩
    refine ⟨v, hm, ?_⟩
    simp only [Function.comp, (hP.back v _ (hv v hm)).2]
    rw [hP.len first hf] at h; exact h

/-- The part after the initial piece. -/
theorem matchRest_ok (s : Shape) (hs : ∀ x ∈ s.strings, P x) (vs : List PyStr) (hv : ∀ v ∈ vs, P v) :
    matchRest U s.pieces (s.anys.map .any ++ s.final.toList.map .final) vs =
      .ok (vs.any fun v => restOne (s.anys.map (lowCodes U)) (s.final.map (lowCodes U))
        (firstPiece (s.initial.map (lowCodes U)) (s.anys.map (lowCodes U)) (s.final.map (lowCodes U))).length
        (lowCodes U v)) := by
  have ha : ∀ a ∈ s.anys, P a := fun a h => hs a (by simp [Shape.strings, h])
  obtain ⟨i, as, f⟩ := s
  simp only at ha
  cases f with
  | none =>
    have hno : ∀ p, (Shape.pieces ⟨i, as, none⟩).getLast? ≠ some (.final p) := by
      intro p h
      have hm := List.mem_of_getLast? h
      simp [Shape.pieces] at hm
    have e : matchRest U (Shape.pieces ⟨i, as, none⟩) (as.map .any ++ []) vs = anyLoop U (as.map .any ++ []) vs := by
      unfold matchRest
      split
      · rename_i hp; exact absurd hp (hno _)
      · rfl
    simp only [Option.toList_none, List.map_nil, Option.map_none] at e ⊢
    rw [e, List.append_nil, anyLoop_ok hP as ha vs hv]
    rfl
  | some f =>
    have hf : P f := hs f (by simp [Shape.strings])
    have hlast : (Shape.pieces ⟨i, as, some f⟩).getLast? = some (.final f) := by simp [Shape.pieces]
    obtain ⟨q, hq1, hq2, hq3⟩ : ∃ q, (Shape.pieces ⟨i, as, some f⟩).head? = some q ∧ P q.value ∧
        lowCodes U q.value = firstPiece (i.map (lowCodes U)) (as.map (lowCodes U)) ((some f).map (lowCodes U)) := by
      cases i with
      | some i => exact ⟨.initial i, rfl, hs i (by simp [Shape.strings]), rfl⟩
      | none =>
        cases as with
        | cons a as => exact ⟨.any a, rfl, ha a (by simp), rfl⟩
        | nil => exact ⟨.final f, rfl, hf, rfl⟩
    have e : matchRest U (Shape.pieces ⟨i, as, some f⟩) (as.map .any ++ [.final f]) vs =
        (do let vs ← stripFinal U q.value f vs; anyLoop U (as.map .any) vs) := by
      unfold matchRest
      rw [hlast, hq1]
      cases hx : as.map Piece.any ++ [Piece.final f] with
      | nil => simp at hx
      | cons y ys =>
        simp only
        rw [← hx, List.dropLast_concat]
    simp only [Option.toList_some, List.map_cons, List.map_nil, Option.map_some] at e hq3 ⊢
    rw [e, stripFinal_ok hP hq2 hf as ha vs hv, hq3]
    rfl

/-- The code on a well-formed substring filter is `matchOne` on some value. -/
theorem matchPieces_ok (s : Shape) (hs : ∀ x ∈ s.strings, P x) (vs : List PyStr) (hv : ∀ v ∈ vs, P v) :
    matchPieces U s.pieces vs = .ok (vs.any fun v =>
      matchOne (s.initial.map (lowCodes U)) (s.anys.map (lowCodes U)) (s.final.map (lowCodes U)) (lowCodes U v)) := by
  cases hi : s.initial with
  | none =>
    have e : matchPieces U s.pieces vs = matchRest U s.pieces (s.anys.map .any ++ s.final.toList.map .final) vs := by
      have hp : s.pieces = s.anys.map .any ++ s.final.toList.map .final := by simp [Shape.pieces, hi]
      unfold matchPieces
      split
      · rename_i p rest hx
        rw [hp] at hx
        exfalso
        cases ha : s.anys with
        | cons a as => rw [ha] at hx; cases hx
        | nil =>
          cases hf : s.final with
          | none => rw [ha, hf] at hx; cases hx
          | some f => rw [ha, hf] at hx; cases hx
      · rw [hp]
    rw [e, matchRest_ok hP s hs vs hv]
    simp only [hi, Option.map_none, matchOne, Option.getD_none, List.isPrefixOf_nil_left, Bool.true_and,
      List.length_nil, List.drop_zero, firstPiece]
  | some p =>
    have hp : P p := hs p (by simp [Shape.strings, hi])
    have hpc : s.pieces = .initial p :: (s.anys.map .any ++ s.final.toList.map .final) := by simp [Shape.pieces, hi]
    have e : matchPieces U s.pieces vs = (do
        let vs ← stripInitial U p vs
        matchRest U s.pieces (s.anys.map .any ++ s.final.toList.map .final) vs) := by
      rw [hpc]; rfl
    rw [e]
    simp only [stripInitial, bind, Except.bind, pure, Except.pure]
    rw [filterPy_ok _ (fun v => (lowCodes U p).isPrefixOf (lowCodes U v)) vs (fun v h => hP.starts v p (hv v h) hp)]
    simp only
    rw [matchRest_ok hP s hs _ (by
      intro x hx
      simp only [List.mem_map, List.mem_filter] at hx
      obtain ⟨y, ⟨hy, _⟩, rfl⟩ := hx
      exact (hP.drop y _ (hv y hy)).1)]
    congr 1
    rw [List.any_map, List.any_filter, Bool.eq_iff_iff, List.any_eq_true, List.any_eq_true]
    have key : ∀ v ∈ vs, lowCodes U (v.dropFront p.len) = (lowCodes U v).drop (lowCodes U p).length := by
      intro v hm; rw [(hP.drop v _ (hv v hm)).2, hP.len p hp]
    constructor
    · rintro ⟨v, hm, h⟩
      refine ⟨v, hm, ?_⟩
      simp only [Function.comp, key v hm, hi, Option.map_some] at h
      exact h
    · rintro ⟨v, hm, h⟩
      refine ⟨v, hm, ?_⟩
      simp only [Function.comp, key v hm, hi, Option.map_some]
      exact h

end

end Verif.Match
