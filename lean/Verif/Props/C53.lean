import Verif.Model.NumberAlloc
import Mathlib.Tactic.Common
import Mathlib.Tactic.Linarith
/-
C53  The free-number search returns a free number.

Full statement: for every `min`, optional `max` and every finite set of taken numbers the search ends, the number it returns
is free, and it is `min` or its predecessor is taken.  It is false when a `max` is given: the search returns `max` without
asking whether it is free (`max_not_asked`), and with `max` below `min` it may never end (`max_below_min_loops`).
Proved: the full statement without `max` (`search_free`), and with a `max` above `min` that is free
(`search_free_max_partial`); with any `max` above `min` the search ends and the number is free or is `max`
(`search_max_partial`).
-/
namespace Verif.C53
open Verif.NumberAlloc

/-- The bisection between a taken number and an upper end.  `P` is kept by the upper end. -/
theorem bisect (taken : Int → Bool) (P : Int → Prop) (hP : ∀ n, taken n = false → P n) :
    ∀ (fuel : Nat) (lo hi guess : Int), lo < guess → guess < hi → (hi - lo).toNat ≤ fuel → taken lo = true → P hi →
      ∃ n, loop taken fuel ⟨lo, some hi⟩ guess = some n ∧ P n ∧ taken (n - 1) = true ∧ lo < n ∧ n ≤ hi := by
  intro fuel
  induction fuel with
  | zero => intro lo hi guess h1 h2 h3; omega
  | succ fuel ih =>
    intro lo hi guess h1 h2 h3 h4 h5
    cases ht : taken guess with
    | true =>
      simp only [loop, ht, learn, choose, if_true]
      by_cases he : hi = guess ∨ hi = guess + 1
      · rw [if_pos he]
        have : hi = guess + 1 := by omega
        subst this
        exact ⟨guess + 1, rfl, h5, by simpa using ht, by omega, le_refl _⟩
      · rw [if_neg he]
        obtain ⟨n, e1, e2, e3, e4, e5⟩ := ih guess hi ((hi + guess) / 2) (by omega) (by omega) (by omega) ht h5
        exact ⟨n, e1, e2, e3, by omega, e5⟩
    | false =>
      simp only [loop, ht, learn, choose, Bool.false_eq_true, if_false]
      by_cases he : guess = lo ∨ guess = lo + 1
      · rw [if_pos he]
        have : guess = lo + 1 := by omega
        subst this
        exact ⟨lo + 1, rfl, hP _ ht, by simpa using h4, by omega, by omega⟩
      · rw [if_neg he]
        obtain ⟨n, e1, e2, e3, e4, e5⟩ := ih lo guess ((guess + lo) / 2) (by omega) (by omega) (by omega) h4 (hP _ ht)
        exact ⟨n, e1, e2, e3, e4, by omega⟩

/-- The steps upwards while no upper end is known. -/
theorem climb (taken : Int → Bool) (bound : Int) (hb : ∀ n, bound ≤ n → taken n = false) :
    ∀ (fuel : Nat) (lo : Int), taken lo = true → (bound - lo).toNat + 500 ≤ fuel →
      ∃ n, loop taken fuel ⟨lo, none⟩ (lo + 500) = some n ∧ taken n = false ∧ taken (n - 1) = true ∧ lo < n := by
  intro fuel
  induction fuel with
  | zero => intro lo _ h; omega
  | succ fuel ih =>
    intro lo hlo hf
    have hlt : lo < bound := by
      by_contra h
      rw [hb lo (by omega)] at hlo
      cases hlo
    cases ht : taken (lo + 500) with
    | true =>
      simp only [loop, ht, learn, choose, if_true]
      have e : (lo + 500 + 1000 + (lo + 500)) / 2 = lo + 500 + 500 := by omega
      rw [e]
      obtain ⟨n, e1, e2, e3, e4⟩ := ih (lo + 500) ht (by omega)
      exact ⟨n, e1, e2, e3, by omega⟩
    | false =>
      simp only [loop, ht, learn, choose, Bool.false_eq_true, if_false]
      rw [if_neg (by omega)]
      obtain ⟨n, e1, e2, e3, e4, _⟩ := bisect taken (taken · = false) (fun _ h => h) fuel lo (lo + 500) ((lo + 500 + lo) / 2)
        (by omega) (by omega) (by omega) hlo ht
      exact ⟨n, e1, e2, e3, e4⟩

/-- More questions do not change the answer, so that the answer is the one of the unbounded search. -/
theorem answer_stable (taken : Int → Bool) (fuel fuel' : Nat) (g : Guesser) (guess n : Int) (h : loop taken fuel g guess = some n)
    (hle : fuel ≤ fuel') : loop taken fuel' g guess = some n := by
  induction fuel generalizing fuel' g guess with
  | zero => simp [loop] at h
  | succ fuel ih =>
    obtain ⟨f, rfl⟩ : ∃ f, fuel' = f + 1 := ⟨fuel' - 1, by omega⟩
    simp only [loop] at h ⊢
    split <;> simp_all

/-- Without an upper limit, and whatever finite set of numbers is taken, the search ends, and the number it returns is free
and is `min` or follows a taken one. -/
theorem search_free (taken : Int → Bool) (min bound : Int) (hb : ∀ n, bound ≤ n → taken n = false) :
    ∃ fuel n, start taken fuel ⟨min, none⟩ = some n ∧ taken n = false ∧ min ≤ n ∧ (n = min ∨ taken (n - 1) = true) := by
  cases ht : taken min with
  | false =>
    refine ⟨1, min, ?_, ht, le_refl _, .inl rfl⟩
    simp [start, loop, ht, learn, choose]
  | true =>
    obtain ⟨n, e1, e2, e3, e4⟩ := climb taken bound hb ((bound - min).toNat + 500) min ht (le_refl _)
    generalize (bound - min).toNat + 500 = fuel at e1
    refine ⟨fuel + 1, n, ?_, e2, by omega, .inr e3⟩
    have e : (min + 1000 + min) / 2 = min + 500 := by omega
    simp only [start, loop, ht, learn, choose, if_true, e]
    exact e1

/-- If moreover the taken numbers from `min` on are an initial segment, it is the smallest free number. -/
theorem search_smallest (taken : Int → Bool) (min bound : Int) (hb : ∀ n, bound ≤ n → taken n = false)
    (hseg : ∀ a b, min ≤ a → a ≤ b → taken b = true → taken a = true) :
    ∃ fuel n, start taken fuel ⟨min, none⟩ = some n ∧ taken n = false ∧ min ≤ n ∧ ∀ k, min ≤ k → k < n → taken k = true := by
  obtain ⟨fuel, n, h1, h2, h3, h4⟩ := search_free taken min bound hb
  refine ⟨fuel, n, h1, h2, h3, fun k hk1 hk2 => ?_⟩
  rcases h4 with h4 | h4
  · omega
  · exact hseg k (n - 1) hk1 (by omega) h4

/-- With an upper limit above `min` the search ends within the limits, and the number is free or is the limit. -/
theorem search_max_partial (taken : Int → Bool) (min max : Int) (h : min < max) :
    ∃ fuel n, start taken fuel ⟨min, some max⟩ = some n ∧ (taken n = false ∨ n = max) ∧ min ≤ n ∧ n ≤ max ∧ (n = min ∨ taken (n - 1) = true) := by
  cases ht : taken min with
  | false =>
    refine ⟨1, min, ?_, .inl ht, le_refl _, by omega, .inl rfl⟩
    simp [start, loop, ht, learn, choose]
  | true =>
    by_cases h1 : max = min + 1
    · subst h1
      refine ⟨1, min + 1, ?_, .inr rfl, by omega, le_refl _, .inr (by simpa using ht)⟩
      simp [start, loop, ht, learn, choose]
    · obtain ⟨n, e1, e2, e3, e4, e5⟩ := bisect taken (fun n => taken n = false ∨ n = max) (fun _ h => .inl h) (max - min).toNat min max
        ((max + min) / 2) (by omega) (by omega) (le_refl _) ht (.inr rfl)
      refine ⟨(max - min).toNat + 1, n, ?_, e2, by omega, e5, .inr e3⟩
      simp only [start, loop, ht, learn, choose, if_true]
      rw [if_neg (by omega)]
      exact e1

/-- With a free upper limit above `min` the full statement holds. -/
theorem search_free_max_partial (taken : Int → Bool) (min max : Int) (h : min < max) (hm : taken max = false) :
    ∃ fuel n, start taken fuel ⟨min, some max⟩ = some n ∧ taken n = false ∧ min ≤ n ∧ n ≤ max ∧ (n = min ∨ taken (n - 1) = true) := by
  obtain ⟨fuel, n, h1, h2, h3, h4, h5⟩ := search_max_partial taken min max h
  refine ⟨fuel, n, h1, ?_, h3, h4, h5⟩
  rcases h2 with h2 | rfl
  · exact h2
  · exact hm

/-- When all numbers up to the upper limit are taken, the search returns the limit all the same, for every limit above
`min`. -/
theorem max_not_asked (taken : Int → Bool) (min max : Int) (h : min < max) (hall : ∀ n, min ≤ n → n ≤ max → taken n = true) :
    ∃ fuel, start taken fuel ⟨min, some max⟩ = some max ∧ taken max = true := by
  obtain ⟨fuel, n, h1, h2, h3, h4, _⟩ := search_max_partial taken min max h
  rcases h2 with h2 | rfl
  · rw [hall n h3 h4] at h2; cases h2
  · exact ⟨fuel, h1, hall _ h3 h4⟩

/-- With an upper limit below `min` the search may go on forever. -/
theorem max_below_min_loops : ∃ (taken : Int → Bool) (min max : Int), max < min ∧ ∀ fuel, start taken fuel ⟨min, some max⟩ = none := by
  have forever : ∀ fuel, loop (fun n => decide (n = 7)) fuel ⟨7, some 6⟩ 6 = none := by
    intro fuel
    induction fuel with
    | zero => rfl
    | succ fuel ih =>
      have e : choose (learn ⟨7, some 6⟩ (decide ((6 : Int) = 7)) 6) = .ask ⟨7, some 6⟩ 6 := by decide
      simp only [loop, e]
      exact ih
  refine ⟨fun n => decide (n = 7), 7, 6, by decide, fun fuel => ?_⟩
  cases fuel with
  | zero => rfl
  | succ fuel =>
    have e : choose (learn ⟨7, some 6⟩ (decide ((7 : Int) = 7)) 7) = .ask ⟨7, some 6⟩ 6 := by decide
    simp only [start, loop]
    exact forever fuel

/-- A run: 1000 to 1499 and 1501 are taken. -/
example : start (fun n => decide (1000 ≤ n ∧ n < 1500 ∨ n = 1501)) 20 ⟨1000, none⟩ = some 1500 ∧
    start (fun n => decide (1000 ≤ n ∧ n ≤ 1600)) 20 ⟨1000, none⟩ = some 1601 := by decide +kernel

end Verif.C53
