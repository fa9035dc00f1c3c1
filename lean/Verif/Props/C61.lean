import Verif.Props.C54
import Mathlib.Tactic.IntervalCases
/-
C61  The reverse zone of a network is named after its network octets.

Full statement: for an address and a mask of `n` ones, `n ≤ 32`, `ptrSoaName` gives the `n / 8` leading octets in reverse order,
preceded by the next octet, masked, with `/n` if `n` is no multiple of 8, under `in-addr.arpa`.  It is false for masks shorter
than one octet, for which all four octets appear (`short_mask_wrong`).
Proved: the statement for `8 ≤ n` (`zone_name_partial`).
-/
namespace Verif.C61
open Verif.Dns Verif.C54

/-- The labels of the zone of a network, most specific first. -/
def labels (octets : List UInt8) (n : Nat) : List Str :=
  let whole := ((octets.take (n / 8)).map octetText).reverse
  if n % 8 = 0 then whole
  else
    let keep := 2 ^ (8 - n % 8)
    let o := (octets.getD (n / 8) 0).toNat
    (Decimal.ofInt ((o / keep * keep : Nat) : Int) ++ ['/'] ++ Decimal.ofInt n) :: whole

/-- The name of the zone. -/
def zone (octets : List UInt8) (n : Nat) : Str := ['.'].intercalate (labels octets n) ++ ".in-addr.arpa.".toList

theorem and_ones {x n : Nat} (hx : x < 2 ^ 32) (hn : n ≤ 32) : x &&& onesThenZeros n = x / 2 ^ (32 - n) * 2 ^ (32 - n) := by
  have e : x / 2 ^ (32 - n) * 2 ^ (32 - n) = (x >>> (32 - n)) <<< (32 - n) := by rw [Nat.shiftLeft_eq, Nat.shiftRight_eq_div_pow]
  have e2 : onesThenZeros n = (2 ^ n - 1) <<< (32 - n) := by
    rw [Nat.shiftLeft_eq, Nat.sub_mul, ← pow_add, Nat.one_mul, show n + (32 - n) = 32 by omega]
    rfl
  rw [e, e2]
  apply Nat.eq_of_testBit_eq
  intro i
  rw [Nat.testBit_and, Nat.testBit_shiftLeft, Nat.testBit_shiftLeft, Nat.testBit_shiftRight, Nat.testBit_two_pow_sub_one]
  by_cases h : 32 - n ≤ i
  · simp only [h, decide_true, Bool.true_and, show 32 - n + (i - (32 - n)) = i by omega]
    by_cases h2 : i - (32 - n) < n
    · simp [h2]
    · have : x.testBit i = false := Nat.testBit_lt_two_pow (lt_of_lt_of_le hx (Nat.pow_le_pow_right (by decide) (by omega)))
      simp [this]
  · simp [h]

theorem join_eq (l : List Str) : joinWith ['.'] l = ['.'].intercalate l := by
  induction l with
  | nil => rfl
  | cons x l ih =>
    cases l with
    | nil => simp [joinWith, List.intercalate]
    | cons y l => rw [joinWith, ih]; simp [List.intercalate]; simp

/-- The octets of a network. -/
theorem net_octets (a b c d : UInt8) (n : Nat) (hn : n ≤ 32) : ∃ net, aton (.quad a b c d) &&& onesThenZeros n = net ∧ net < 2 ^ 32 ∧
    net = aton (.quad a b c d) / 2 ^ (32 - n) * 2 ^ (32 - n) := by
  refine ⟨_, rfl, ?_, and_ones (quad_lt a b c d) hn⟩
  exact lt_of_le_of_lt Nat.and_le_left (quad_lt a b c d)

theorem mask_ones {mask : Addr} {n : Nat} (h : netmaskToNumbits mask = .ok n) : n ≤ 32 ∧ aton mask = onesThenZeros n := by
  cases mask with
  | quad a b c d => exact (dotted_iff a b c d n).mp h
  | num i =>
    have e := mask_of_length i
    have h' := length_roundtrip (min 32 i.toNat) (by omega)
    unfold netmaskToNumbits at h h'
    rw [mask_of_length, show min 32 ((min 32 i.toNat : Nat) : Int).toNat = min 32 i.toNat by omega] at h'
    rw [e, h'] at h
    cases h
    exact ⟨by omega, e⟩

theorem number_eq {x y : Nat} (h : x = y) : Decimal.ofInt (x : Int) = Decimal.ofInt (y : Int) := by rw [h]

theorem part_eq {x y : Nat} {t : Str} (h : x = y) : Decimal.ofInt (x : Int) ++ ['/'] ++ t = Decimal.ofInt (y : Int) ++ ['/'] ++ t := by rw [h]

/-- For masks of at least one octet the name is right, whichever way the mask is given. -/
theorem zone_name_partial (a b c d : UInt8) (mask : Addr) (n : Nat) (h8 : 8 ≤ n) (hm : netmaskToNumbits mask = .ok n) :
    ptrSoaName (.quad a b c d) mask = .ok (zone [a, b, c, d] n) := by
  obtain ⟨hn, hq⟩ := mask_ones hm
  obtain ⟨net, e1, e2, e3⟩ := net_octets a b c d n hn
  have ha := a.toNat_lt; have hb := b.toNat_lt; have hc := c.toNat_lt; have hd := d.toNat_lt
  simp only [aton, atonOctets] at e3
  unfold ptrSoaName
  simp only [hq, hm, e1, bind, Except.bind, ntoa, if_pos e2, pure, Except.pure, join_eq, zone]
  interval_cases n <;>
  · simp only [labels, lastN, List.map_cons, List.map_nil, List.reverse_cons, List.reverse_nil, List.nil_append, List.cons_append,
      List.length_cons, List.length_nil, Nat.reduceMod, Nat.reduceDiv, Nat.reduceSub, Nat.reduceAdd, Nat.reducePow, if_true, if_false,
      OfNat.ofNat_ne_zero, List.getElem?_cons_succ, List.getElem?_cons_zero, List.drop_succ_cons, List.drop_zero, List.take_succ_cons,
      List.take_zero, List.getD_cons_succ, List.getD_cons_zero, one_ne_zero]
    simp only [Nat.reducePow, Nat.reduceSub] at e3
    congr 3
    try simp only [List.cons.injEq, and_true, octetText]
    repeat' apply And.intro
    all_goals (simp only [UInt8.toNat_ofNat']; first | (apply number_eq; omega) | (apply part_eq; omega))

/-- For masks shorter than one octet the name has all four octets, as here for the whole address space. -/
theorem short_mask_wrong : ∃ (mask : Addr) (n : Nat), netmaskToNumbits mask = .ok n ∧
    ptrSoaName (.quad 10 1 2 3) mask ≠ .ok (zone [10, 1, 2, 3] n) ∧ ptrSoaName (.quad 10 1 2 3) mask = .ok "0.0.0.0.in-addr.arpa.".toList :=
  ⟨.num 0, 0, by decide +kernel, by decide +kernel, by decide +kernel⟩

/-- The same with a fractional octet. -/
theorem short_fraction_wrong : ptrSoaName (.quad 130 1 2 3) (.num 4) = .ok "128/4.0.0.0.128.in-addr.arpa.".toList ∧
    zone [130, 1, 2, 3] 4 = "128/4.in-addr.arpa.".toList := by decide +kernel

example : ptrSoaName (.quad 10 1 2 77) (.quad 255 255 255 224) = .ok "64/27.2.1.10.in-addr.arpa.".toList ∧
    ptrSoaName (.quad 10 1 2 77) (.num 16) = .ok "1.10.in-addr.arpa.".toList := by decide +kernel

end Verif.C61
