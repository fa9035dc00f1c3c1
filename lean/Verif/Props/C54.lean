import Verif.Model.Dns
import Mathlib.Tactic.Common
import Mathlib.Tactic.Ring
import Mathlib.Tactic.Linarith
import Mathlib.Data.Nat.Bitwise
/-
C54  Netmask conversions are inverse.
-/
namespace Verif.C54
open Verif.Dns

/-- A mask of `n` ones followed by zeros, in 32 bits. -/
def onesThenZeros (n : Nat) : Nat := 2 ^ 32 - 2 ^ (32 - n)

theorem and_top {bits k : Nat} (h : bits < 2 ^ (k + 1)) : bits &&& 2 ^ k = 0 ↔ bits < 2 ^ k := by
  rw [Nat.and_two_pow]
  constructor
  · intro e
    by_contra hc
    have : bits.testBit k = true := by
      rw [Nat.testBit_eq_decide_div_mod_eq]
      have : bits / 2 ^ k = 1 := by
        rw [Nat.div_eq_iff (by positivity)]
        rw [pow_succ] at h
        omega
      simp [this]
    simp [this] at e
  · intro hlt
    simp [Nat.testBit_lt_two_pow hlt]

theorem maskLoop_spec (k : Nat) : ∀ bits n, bits < 2 ^ k →
    (∀ m, maskLoop bits k n = .ok m ↔ ∃ j, j ≤ k ∧ m = n + j ∧ bits = 2 ^ k - 2 ^ (k - j)) ∧ (∀ x, maskLoop bits k n = .error x → x = .other) := by
  induction k with
  | zero =>
    intro bits n hb
    have : bits = 0 := by simpa using hb
    subst this
    refine ⟨fun m => ?_, fun x h => by simp [maskLoop] at h⟩
    simp only [maskLoop, Except.ok.injEq]
    constructor
    · rintro rfl; exact ⟨0, le_refl _, rfl, rfl⟩
    · rintro ⟨j, hj, rfl, _⟩; omega
  | succ k ih =>
    intro bits n hb
    have hpos : 0 < 2 ^ k := by positivity
    have h2 : 2 ^ (k + 1) = 2 ^ k + 2 ^ k := by rw [pow_succ]; omega
    by_cases h0 : bits = 0
    · subst h0
      refine ⟨fun m => ?_, fun x h => by simp [maskLoop] at h⟩
      simp only [maskLoop, if_true, Except.ok.injEq]
      constructor
      · rintro rfl; exact ⟨0, by omega, rfl, by simp⟩
      · rintro ⟨j, hj, rfl, e⟩
        have : 2 ^ (k + 1 - j) < 2 ^ (k + 1) ∨ j = 0 := by
          by_cases hj0 : j = 0
          · exact .inr hj0
          · exact .inl (Nat.pow_lt_pow_right (by decide) (by omega))
        omega
    · simp only [maskLoop, if_neg h0]
      by_cases ha : bits &&& 2 ^ k = 0
      · rw [if_pos ha]
        have hlt := (and_top hb).mp ha
        refine ⟨fun m => ?_, fun x h => by cases h; rfl⟩
        simp only [reduceCtorEq, false_iff, not_exists, not_and]
        rintro j hj rfl e
        have : 2 ^ (k + 1 - j) ≤ 2 ^ k ∨ j = 0 := by
          by_cases hj0 : j = 0
          · exact .inr hj0
          · exact .inl (Nat.pow_le_pow_right (by decide) (by omega))
        rcases this with h | rfl
        · omega
        · simp at e; omega
      · rw [if_neg ha]
        have hge : 2 ^ k ≤ bits := by
          by_contra hc
          exact ha ((and_top hb).mpr (by omega))
        obtain ⟨i1, i2⟩ := ih (bits - 2 ^ k) (n + 1) (by omega)
        refine ⟨fun m => ?_, i2⟩
        rw [i1]
        constructor
        · rintro ⟨j, hj, rfl, e⟩
          refine ⟨j + 1, by omega, by omega, ?_⟩
          have : 2 ^ (k - j) ≤ 2 ^ k := Nat.pow_le_pow_right (by decide) (by omega)
          rw [show k + 1 - (j + 1) = k - j by omega]
          omega
        · rintro ⟨j, hj, rfl, e⟩
          have hj0 : j ≠ 0 := by rintro rfl; simp at e; exact h0 e
          refine ⟨j - 1, by omega, by omega, ?_⟩
          have : 2 ^ (k + 1 - j) ≤ 2 ^ k := Nat.pow_le_pow_right (by decide) (by omega)
          rw [show k - (j - 1) = k + 1 - j by omega]
          omega

theorem ones_le (n : Nat) : onesThenZeros n < 2 ^ 32 := by
  unfold onesThenZeros
  have : 0 < 2 ^ (32 - n) := by positivity
  omega

theorem numbitsLoop_ones (num n : Nat) : numbitsLoop (onesThenZeros n) num = onesThenZeros (min 32 (n + num)) ∨ 32 < n := by
  induction num generalizing n with
  | zero =>
    by_cases h : 32 < n
    · exact .inr h
    · left; simp [numbitsLoop, show min 32 n = n by omega]
  | succ num ih =>
    by_cases h : 32 < n
    · exact .inr h
    · left
      have step : (onesThenZeros n >>> 1) ||| 2 ^ 31 = onesThenZeros (min 32 (n + 1)) := by
        have : ∀ n : Fin 33, (onesThenZeros n >>> 1) ||| 2 ^ 31 = onesThenZeros (min 32 (n + 1)) := by decide +kernel
        exact this ⟨n, by omega⟩
      simp only [numbitsLoop, step]
      rcases ih (min 32 (n + 1)) with e | e
      · rw [e]; congr 1; omega
      · omega

/-- Of a prefix length between 0 and 32 the mask has that many ones; longer ones count as 32, negative ones as 0. -/
theorem mask_of_length (num : Int) : aton (.num num) = onesThenZeros (min 32 num.toNat) := by
  have h := numbitsLoop_ones num.toNat 0
  simp only [onesThenZeros, Nat.sub_zero, Nat.sub_self, Nat.zero_add, show ¬ 32 < 0 by decide, or_false] at h
  exact h

/-- A prefix length converted to a mask and back is the same. -/
theorem length_roundtrip (num : Nat) (h : num ≤ 32) : netmaskToNumbits (.num num) = .ok num := by
  unfold netmaskToNumbits
  rw [mask_of_length]
  refine ((maskLoop_spec 32 _ 0 (ones_le _)).1 num).mpr ⟨num, h, by omega, ?_⟩
  rw [show min 32 (num : Int).toNat = num by omega]
  rfl

theorem quad_lt (a b c d : UInt8) : aton (.quad a b c d) < 2 ^ 32 := by
  have := a.toNat_lt; have := b.toNat_lt; have := c.toNat_lt; have := d.toNat_lt
  simp only [aton, atonOctets]
  omega

/-- A dotted mask is accepted exactly if it is a run of ones followed by zeros, and then the answer is the length of the
run. -/
theorem dotted_iff (a b c d : UInt8) (n : Nat) :
    netmaskToNumbits (.quad a b c d) = .ok n ↔ n ≤ 32 ∧ aton (.quad a b c d) = onesThenZeros n := by
  unfold netmaskToNumbits
  rw [(maskLoop_spec 32 _ 0 (quad_lt a b c d)).1 n]
  constructor
  · rintro ⟨j, hj, rfl, e⟩
    simp only [Nat.zero_add]
    exact ⟨hj, e⟩
  · rintro ⟨h, e⟩; exact ⟨n, h, by omega, e⟩

/-- Every other mask is refused with an error. -/
theorem dotted_refused (a b c d : UInt8) (h : ∀ n, n ≤ 32 → aton (.quad a b c d) ≠ onesThenZeros n) :
    netmaskToNumbits (.quad a b c d) = .error .other := by
  cases e : netmaskToNumbits (.quad a b c d) with
  | ok n => obtain ⟨h1, h2⟩ := (dotted_iff a b c d n).mp e; exact absurd h2 (h n h1)
  | error x => rw [(maskLoop_spec 32 _ 0 (quad_lt a b c d)).2 x e]

/-- An accepted dotted mask, turned into its length and back, is the same mask. -/
theorem mask_roundtrip (a b c d : UInt8) (n : Nat) (h : netmaskToNumbits (.quad a b c d) = .ok n) : ntoa (aton (.num n)) = .ok [a, b, c, d] := by
  obtain ⟨h1, h2⟩ := (dotted_iff a b c d n).mp h
  rw [mask_of_length, show min 32 (n : Int).toNat = n by omega, ← h2]
  unfold ntoa
  rw [if_pos (quad_lt a b c d)]
  have ha := a.toNat_lt; have hb := b.toNat_lt; have hc := c.toNat_lt; have hd := d.toNat_lt
  simp only [aton, atonOctets, Except.ok.injEq, List.cons.injEq, and_true]
  refine ⟨?_, ?_, ?_, ?_⟩ <;> (apply UInt8.toNat.inj; simp only [UInt8.toNat_ofNat']; omega)

/-- Distinct lengths have distinct masks. -/
theorem lengths_distinct (m n : Nat) (hm : m ≤ 32) (hn : n ≤ 32) (h : aton (.num m) = aton (.num n)) : m = n := by
  have e1 := length_roundtrip m hm
  rw [show netmaskToNumbits (.num m) = netmaskToNumbits (.num n) by unfold netmaskToNumbits; rw [h], length_roundtrip n hn] at e1
  exact (Except.ok.inj e1).symm

example : netmaskToNumbits (.quad 255 255 240 0) = .ok 20 ∧ ntoa (aton (.num 20)) = .ok [255, 255, 240, 0] ∧
    netmaskToNumbits (.quad 255 0 255 0) = .error .other := by decide +kernel

end Verif.C54
