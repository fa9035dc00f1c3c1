import Verif.Model.Decimal
import Mathlib.Tactic.Common
/-
Decimal text.
-/
namespace Verif.Decimal

theorem digits_toDigits (n : Nat) : digits (Nat.toDigits 10 n) = .ok n := by
  unfold digits
  rw [if_pos]
  · rw [Nat.ofDigitChars_ten_toDigits]
  · exact ⟨Nat.toDigits_ne_nil, List.all_eq_true.mpr fun c hc => Nat.isDigit_of_mem_toDigits (by decide) (by decide) hc⟩

theorem toInt_of_digit {c : Char} {s : Str} (h : c.isDigit = true) : toInt (c :: s) = (do let n ← digits (c :: s); return (n : Int)) := by
  unfold toInt
  split
  · rename_i e; cases e; exact absurd h (by decide)
  · rename_i e; cases e; exact absurd h (by decide)
  · rfl

/-- Reading what was printed gives the number back. -/
theorem toInt_ofInt (n : Int) : toInt (ofInt n) = .ok n := by
  cases n with
  | ofNat n =>
    have hm : ∀ c ∈ Nat.toDigits 10 n, c.isDigit = true := fun c hc => Nat.isDigit_of_mem_toDigits (by decide) (by decide) hc
    have hd := digits_toDigits n
    cases hs : Nat.toDigits 10 n with
    | nil => exact absurd hs Nat.toDigits_ne_nil
    | cons c s =>
      rw [hs] at hm hd
      simp only [ofInt, hs, toInt_of_digit (hm c (by simp)), hd]
      rfl
  | negSucc n =>
    simp only [ofInt, toInt, digits_toDigits]
    rfl

theorem ofInt_injective {a b : Int} (h : ofInt a = ofInt b) : a = b := by
  have := toInt_ofInt a
  rw [h, toInt_ofInt] at this
  exact (Except.ok.inj this).symm

theorem ofInt_ne_nil (n : Int) : ofInt n ≠ [] := by
  cases n with
  | ofNat n => exact Nat.toDigits_ne_nil
  | negSucc n => simp [ofInt]

/-- The characters of printed numbers. -/
theorem ofInt_mem {n : Int} {c : Char} (h : c ∈ ofInt n) : c.isDigit = true ∨ c = '-' := by
  cases n with
  | ofNat n => exact .inl (Nat.isDigit_of_mem_toDigits (by decide) (by decide) h)
  | negSucc n =>
    rcases List.mem_cons.mp h with h | h
    · exact .inr h
    · exact .inl (Nat.isDigit_of_mem_toDigits (by decide) (by decide) h)

theorem ofInt_nonneg_mem {n : Int} (hn : 0 ≤ n) {c : Char} (h : c ∈ ofInt n) : c.isDigit = true := by
  cases n with
  | ofNat n => exact Nat.isDigit_of_mem_toDigits (by decide) (by decide) h
  | negSucc n => omega

end Verif.Decimal
