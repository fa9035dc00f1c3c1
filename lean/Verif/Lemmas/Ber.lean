import Verif.Model.Ber
import Verif.Spec.Ber
/- Helper lemmas about the BER integer and length layer. -/
namespace Verif.Ber
open Verif.Spec

/-- Push casts from `Nat` to `Int` inwards (without evaluating powers). -/
macro "castN" : tactic =>
  `(tactic| simp only [Int.natCast_add, Int.natCast_mul, Int.natCast_pow, Int.cast_ofNat_Int])

theorem toNat_lt (b : UInt8) : b.toNat < 256 := b.toNat_lt

theorem lowByte_toNat (i : Int) : ((lowByte i).toNat : Int) = i % 256 := by
  have h1 : 0 ≤ i % 256 := Int.emod_nonneg _ (by decide)
  have h2 : i % 256 < 256 := Int.emod_lt_of_pos _ (by decide)
  unfold lowByte
  rw [UInt8.toNat_ofNat']
  omega

theorem foldl_bigEndian (bs : Bytes) (v : Int) :
    bs.foldl (fun v (b : UInt8) => v * 256 + (b.toNat : Int)) v = v * 256 ^ bs.length + bigEndian bs := by
  induction bs generalizing v with
  | nil => simp [bigEndian]
  | cons b bs ih =>
    simp only [List.foldl_cons, ih, bigEndian, List.length_cons, Int.pow_succ]
    castN
    grind

theorem bigEndian_lt (bs : Bytes) : bigEndian bs < 256 ^ bs.length := by
  induction bs with
  | nil => simp [bigEndian]
  | cons b bs ih =>
    have := toNat_lt b
    simp only [bigEndian, List.length_cons, Nat.pow_succ]
    have : b.toNat * 256 ^ bs.length ≤ 255 * 256 ^ bs.length := Nat.mul_le_mul_right _ (by omega)
    omega

theorem bigEndian_append (as bs : Bytes) :
    bigEndian (as ++ bs) = bigEndian as * 256 ^ bs.length + bigEndian bs := by
  induction as with
  | nil => simp [bigEndian]
  | cons a as ih =>
    simp only [List.cons_append, bigEndian, ih, List.length_append, Nat.pow_add]
    grind

theorem ber2int_unsigned (b : UInt8) (bs : Bytes) :
    ber2int (b :: bs) (signed := false) = .ok (bigEndian (b :: bs) : Int) := by
  simp [ber2int, foldl_bigEndian, bigEndian]

theorem ber2int_signed (b : UInt8) (bs : Bytes) :
    ber2int (b :: bs) = .ok (twosComplement (b :: bs)) := by
  simp only [ber2int, foldl_bigEndian, twosComplement, bigEndian]
  by_cases h : 128 ≤ b.toNat
  · simp only [h, and_self, ↓reduceIte, Except.ok.injEq]
    castN
    rw [Int.pow_succ]; grind
  · simp only [h, false_and, ↓reduceIte, Except.ok.injEq]
    castN

/-- Value denoted by "integer `i` followed by octets `acc`". -/
theorem int2berLoop_unsigned (i : Int) (acc : Bytes) (hi : 0 ≤ i) :
    ∃ b bs, int2berLoop false i acc = b :: bs ∧
      (bigEndian (b :: bs) : Int) = i * 256 ^ acc.length + bigEndian acc := by
  fun_induction int2berLoop false i acc with
  | case1 i acc h ih =>
    obtain ⟨b, bs, h1, h2⟩ := ih (by omega)
    refine ⟨b, bs, h1, ?_⟩
    rw [h2]
    simp only [List.length_cons, bigEndian, Int.pow_succ]
    castN
    rw [lowByte_toNat]
    have : i = i / 256 * 256 + i % 256 := by omega
    generalize (256:Int)^acc.length = p at *
    conv => rhs; rw [this]
    grind
  | case2 i acc h =>
    refine ⟨_, _, rfl, ?_⟩
    simp at h
    simp only [bigEndian]
    castN
    rw [lowByte_toNat]
    have : i % 256 = i := by omega
    rw [this]

theorem int2berLoop_signed (i : Int) (acc : Bytes) :
    ∃ b bs, int2berLoop true i acc = b :: bs ∧
      twosComplement (b :: bs) = i * 256 ^ acc.length + bigEndian acc := by
  fun_induction int2berLoop true i acc with
  | case1 i acc h ih =>
    obtain ⟨b, bs, h1, h2⟩ := ih
    refine ⟨b, bs, h1, ?_⟩
    rw [h2]
    simp only [List.length_cons, bigEndian, Int.pow_succ]
    castN
    rw [lowByte_toNat]
    have : i = i / 256 * 256 + i % 256 := by omega
    generalize (256:Int)^acc.length = p at *
    conv => rhs; rw [this]
    grind
  | case2 i acc h =>
    refine ⟨_, _, rfl, ?_⟩
    simp at h
    have hb := lowByte_toNat i
    simp only [twosComplement, bigEndian]
    castN
    rw [hb, Int.pow_succ]
    split
    · have : i % 256 = i + 256 := by omega
      rw [this]; grind
    · have : i % 256 = i := by omega
      rw [this]

theorem int2berLoop_signed_length (k : Nat) (i : Int) (acc : Bytes)
    (h1 : -(128 * 256 ^ k) ≤ i) (h2 : i < 128 * 256 ^ k) :
    (int2berLoop true i acc).length ≤ acc.length + (k + 1) := by
  induction k generalizing i acc with
  | zero =>
    unfold int2berLoop
    have : ¬ (i > 127) := by omega
    have : ¬ (i < -128) := by omega
    simp [*]
  | succ k ih =>
    unfold int2berLoop
    split
    · refine Nat.le_trans (ih _ _ ?_ ?_) (by simp; omega)
      · rw [Int.pow_succ] at h1; generalize (256:Int)^k = p at *; omega
      · rw [Int.pow_succ] at h2; generalize (256:Int)^k = p at *; omega
    · simp

theorem int2berLoop_unsigned_length (k : Nat) (i : Int) (acc : Bytes)
    (h0 : 0 ≤ i) (h2 : i < 256 ^ (k + 1)) :
    (int2berLoop false i acc).length ≤ acc.length + (k + 1) := by
  induction k generalizing i acc with
  | zero =>
    unfold int2berLoop
    have : ¬ (i > 255) := by omega
    simp [*]
  | succ k ih =>
    unfold int2berLoop
    split
    · refine Nat.le_trans (ih _ _ (by omega) ?_) (by simp; omega)
      · rw [Int.pow_succ] at h2; generalize (256:Int)^(k+1) = p at *; omega
    · simp

theorem twosComplement_bounds (b : UInt8) (bs : Bytes) :
    -(128 * 256 ^ bs.length) ≤ twosComplement (b :: bs) ∧
      twosComplement (b :: bs) < 128 * 256 ^ bs.length := by
  have hb := toNat_lt b
  have hbs : (bigEndian bs : Int) < 256 ^ bs.length := by
    have := bigEndian_lt bs
    have h : ((bigEndian bs : Nat) : Int) < ((256 ^ bs.length : Nat) : Int) := by exact_mod_cast this
    simpa only [Int.natCast_pow, Int.cast_ofNat_Int] using h
  have hp : (0:Int) < 256 ^ bs.length := by omega
  simp only [twosComplement, bigEndian]
  castN
  rw [Int.pow_succ]
  generalize (256:Int)^bs.length = p at *
  split
  · rename_i h
    constructor
    · have : 128 * p ≤ b.toNat * p := Int.mul_le_mul_of_nonneg_right (by omega) (by omega)
      omega
    · have : b.toNat * p ≤ 255 * p := Int.mul_le_mul_of_nonneg_right (by omega) (by omega)
      omega
  · rename_i h
    constructor
    · have : 0 ≤ b.toNat * p := Int.mul_nonneg (by omega) (by omega)
      omega
    · have : b.toNat * p ≤ 127 * p := Int.mul_le_mul_of_nonneg_right (by omega) (by omega)
      omega

theorem bigEndian_inj {as bs : Bytes} (hl : as.length = bs.length) (h : bigEndian as = bigEndian bs) :
    as = bs := by
  induction as generalizing bs with
  | nil => cases bs <;> simp_all
  | cons a as ih =>
    cases bs with
    | nil => simp at hl
    | cons b bs =>
      simp only [List.length_cons, Nat.add_right_cancel_iff] at hl
      have h1 := bigEndian_lt as
      have h2 := bigEndian_lt bs
      simp only [bigEndian, hl] at h h1
      have hp : 0 < 256 ^ bs.length := Nat.pow_pos (by decide)
      have hab : a.toNat = b.toNat := by
        have e1 : (a.toNat * 256 ^ bs.length + bigEndian as) / 256 ^ bs.length = a.toNat := by
          rw [Nat.mul_comm, Nat.mul_add_div hp, Nat.div_eq_of_lt h1]; rfl
        have e2 : (b.toNat * 256 ^ bs.length + bigEndian bs) / 256 ^ bs.length = b.toNat := by
          rw [Nat.mul_comm, Nat.mul_add_div hp, Nat.div_eq_of_lt h2]; rfl
        rw [← e1, ← e2, h]
      rw [hab] at h
      rw [UInt8.toNat_inj.mp hab, ih hl (by omega)]

/-- The length octets produced for a length of at most 127. -/
theorem int2ber_small (n : Nat) (h : n ≤ 127) : int2ber n (signed := false) = [UInt8.ofNat n] := by
  unfold int2ber int2berLoop
  have : ¬ ((n:Int) > 255) := by omega
  simp only [this, Bool.false_and, Bool.not_false, Bool.true_and, decide_false, Bool.or_self,
    Bool.false_eq_true, ↓reduceIte, List.cons.injEq, and_true]
  unfold lowByte
  congr 1; omega

theorem int2berlen_ok {n : Nat} {w : Bytes} (h : int2berlen n = .ok w) :
    (n ≤ 127 ∧ w = [UInt8.ofNat n]) ∨
    (127 < n ∧ ∃ b bs, bs.length + 1 ≤ 127 ∧ w = UInt8.ofNat (128 + (bs.length + 1)) :: b :: bs ∧
      bigEndian (b :: bs) = n) := by
  unfold int2berlen at h
  have h0 : ¬ ((n : Int) < 0) := by omega
  simp only [h0, ↓reduceIte] at h
  split at h
  · rename_i h1
    refine .inl ⟨by omega, ?_⟩
    rw [int2ber_small n (by omega)] at h
    exact (Except.ok.inj h).symm
  · rename_i h1
    refine .inr ⟨by omega, ?_⟩
    obtain ⟨b, bs, e1, e2⟩ := int2berLoop_unsigned n [] (by omega)
    unfold int2ber at h
    rw [e1] at h
    simp only [List.length_cons] at h
    split at h
    · cases h
    · split at h
      · cases h
      · refine ⟨b, bs, by omega, (Except.ok.inj h).symm, ?_⟩
        simp only [List.length_nil, Int.pow_zero, Int.mul_one, show bigEndian [] = 0 from rfl] at e2
        omega

/-- `int2berlen` succeeds on every length below `256 ^ 127`. -/
theorem int2berlen_total (n : Nat) (h : n < 256 ^ 127) : ∃ w, int2berlen n = .ok w := by
  unfold int2berlen
  have h0 : ¬ ((n : Int) < 0) := by omega
  simp only [h0, ↓reduceIte]
  split
  · exact ⟨_, rfl⟩
  · obtain ⟨b, bs, e1, e2⟩ := int2berLoop_unsigned n [] (by omega)
    have := int2berLoop_unsigned_length 126 n [] (by omega) (by
      have h' : ((n : Nat) : Int) < ((256 ^ 127 : Nat) : Int) := Int.ofNat_lt.mpr h
      simpa only [Int.natCast_pow, Int.cast_ofNat_Int] using h')
    unfold int2ber
    rw [e1] at this ⊢
    simp only [List.length_cons, List.length_nil] at this ⊢
    simp only [show ¬ (bs.length + 1 = 0) by omega, show ¬ (127 < bs.length + 1) by omega, ↓reduceIte]
    exact ⟨_, rfl⟩

theorem ber2int_one (b : UInt8) :
    ber2int [b] = .ok (if 128 ≤ b.toNat then (b.toNat : Int) - 256 else b.toNat) := by
  simp [ber2int]

/-- Reading back length octets at any offset, whatever follows. -/
theorem berDecodeLength_int2berlen {n : Nat} {w : Bytes} (h : int2berlen n = .ok w)
    (pre rest : Bytes) :
    berDecodeLength (pre ++ (w ++ rest)) pre.length = .ok (n, w.length) := by
  unfold berDecodeLength
  rcases int2berlen_ok h with ⟨hn, rfl⟩ | ⟨hn, b, bs, hl, rfl, hv⟩
  · have hb : (UInt8.ofNat n).toNat = n := by rw [UInt8.toNat_ofNat']; omega
    simp only [List.drop_left, List.cons_append, List.nil_append, List.take_succ_cons, List.take_zero,
      ber2int_one, hb, bind, Except.bind, pure, Except.pure, List.length_cons, List.length_nil]
    simp only [show ¬ (128 ≤ n) by omega, ↓reduceIte]
    rw [if_neg (by omega)]
    simp
  · have hb : (UInt8.ofNat (128 + (bs.length + 1))).toNat = 128 + (bs.length + 1) := by
      rw [UInt8.toNat_ofNat']; omega
    simp only [List.drop_left, List.cons_append, List.take_succ_cons, List.take_zero,
      ber2int_one, hb, bind, Except.bind, pure, Except.pure]
    simp only [show (128 ≤ 128 + (bs.length + 1)) by omega, ↓reduceIte]
    have e2 : (1 + ((((128 + (bs.length + 1) : Nat) : Int) - 256) % 128).toNat) = bs.length + 2 := by omega
    rw [if_pos (by omega), e2]
    have e3 : need (pre ++ UInt8.ofNat (128 + (bs.length + 1)) :: b :: (bs ++ rest))
        (pre.length + (bs.length + 2)) = .ok () := by
      unfold need; rw [if_neg]; simp
    rw [e3]
    have e4 : (List.drop (pre.length + 1) (pre ++ UInt8.ofNat (128 + (bs.length + 1)) :: b :: (bs ++ rest)))
        = b :: (bs ++ rest) := by
      rw [← List.drop_drop, List.drop_left]; rfl
    have e5 : List.take (bs.length + 2 - 1) (b :: (bs ++ rest)) = b :: bs := by
      simp
    simp only [e4, e5]
    simp only [ber2int_unsigned, hv]
    simp

end Verif.Ber
