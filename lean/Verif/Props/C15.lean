import Verif.Props.C14
import Mathlib.Algebra.Order.Field.Rat
import Mathlib.Algebra.Order.Field.Basic
import Mathlib.Tactic.Linarith
/-
C15  Escaped values cannot change a filter's structure.

Full statement: for every non-empty `v`, `(attr=escape(v))` parses as an equality filter on `attr` with value `v`.
As in C14 a tab in `v` is replaced by blanks (`tab_changed`).
Proved: no value can change the structure (`structure_safe`, for every non-empty `v`), and the value is exact when it
contains no tab (`value_exact_partial`).  The same for the other escapers.
-/
namespace Verif.C15
open Verif.FilterText Verif.Spec

/-- The text a caller builds. -/
def equalityText (attr escaped : Str) : Str := "(".toList ++ attr ++ "=".toList ++ escaped ++ ")".toList

/-- `w` is `v` with every tab replaced by between one and eight blanks. -/
inductive TabsBlanked : Str → Str → Prop where
  | nil : TabsBlanked [] []
  | tab (n : Nat) (v w : Str) : 1 ≤ n → n ≤ 8 → TabsBlanked v w → TabsBlanked ('\t' :: v) (List.replicate n ' ' ++ w)
  | keep (c : Char) (v w : Str) : c ≠ '\t' → TabsBlanked v w → TabsBlanked (c :: v) (c :: w)

theorem TabsBlanked.eq_of_noTab {v w : Str} (h : TabsBlanked v w) (ht : '\t' ∉ v) : w = v := by
  induction h with
  | nil => rfl
  | tab n v w _ _ _ _ => exact absurd (by simp) ht
  | keep c v w _ _ ih => rw [ih (fun hm => ht (by simp [hm]))]

theorem TabsBlanked.ne_nil {v w : Str} (h : TabsBlanked v w) (hv : v ≠ []) : w ≠ [] := by
  cases h with
  | nil => exact hv
  | tab n v w h1 _ _ =>
    obtain ⟨m, rfl⟩ : ∃ m, n = m + 1 := ⟨n - 1, by omega⟩
    simp [List.replicate_succ]
  | keep c v w _ _ => simp

theorem escape_blanked (v : Str) (k : Nat) : ∃ w, TabsBlanked v w ∧ expandTabs k (escape v) = escape w := by
  induction v generalizing k with
  | nil => exact ⟨[], .nil, rfl⟩
  | cons c v ih =>
    have e : escape (c :: v) = escape [c] ++ escape v := escape_append [c] v
    by_cases hc : c = '\t'
    · subst hc
      obtain ⟨w, hw, h⟩ := ih (k + (8 - k % 8))
      refine ⟨List.replicate (8 - k % 8) ' ' ++ w, .tab _ _ _ (by omega) (by omega) hw, ?_⟩
      rw [e, escape_append]
      show expandTabs k ('\t' :: escape v) = _
      rw [expandTabs, h]
      congr 1
      generalize 8 - k % 8 = n
      induction n with
      | zero => rfl
      | succ n ih =>
        have : List.replicate (n + 1) ' ' = [' '] ++ List.replicate n ' ' := rfl
        rw [this, escape_append, ← ih]; rfl
    · have h1 : '\t' ∉ escape [c] := escape_noTab (by simpa using Ne.symm hc)
      obtain ⟨k', hk⟩ := expandTabs_append k (escape [c]) (escape v)
      obtain ⟨w, hw, h⟩ := ih k'
      refine ⟨c :: w, .keep _ _ _ hc hw, ?_⟩
      rw [e, hk, expandTabs_id h1, h]
      exact (escape_append [c] w).symm

theorem parse_equality {a v t : Str} (ha : AttrName a) (h : Enc v t) (hv : v ≠ []) (n : Nat) (hn : 2 ≤ n) :
    pFilter n (equalityText a t) = some (.equality a v, []) := by
  obtain ⟨m, rfl⟩ : ∃ m, n = m + 2 := ⟨n - 2, by omega⟩
  have := pFilter_item (n := m) (attr_itemStart ha ('=' :: (t ++ [')']))) (pItem_equality ha h hv [])
  unfold equalityText
  simpa using this

/-- Whatever the value, the text parses as an equality filter on that attribute: nothing can be injected. -/
theorem structure_safe (attr v : Str) (ha : AttrName attr) (hv : v ≠ []) :
    ∃ w, TabsBlanked v w ∧ parseFilter (equalityText attr (escape v)) = .ok (.equality attr w) := by
  have hpre : '\t' ∉ "(".toList ++ attr ++ "=".toList := by
    simp [attr_noTab ha]
  obtain ⟨k, hk⟩ := expandTabs_append 0 ("(".toList ++ attr ++ "=".toList) (escape v ++ ")".toList)
  obtain ⟨k', hk'⟩ := expandTabs_append k (escape v) ")".toList
  obtain ⟨w, hw, he⟩ := escape_blanked v k
  refine ⟨w, hw, ?_⟩
  have hexp : expandTabs 0 (equalityText attr (escape v)) = equalityText attr (escape w) := by
    unfold equalityText
    rw [List.append_assoc _ (escape v), hk, expandTabs_id hpre, hk', he]
    simp [expandTabs]
  unfold parseFilter
  rw [hexp]
  simp only
  rw [parse_equality ha (escape_enc w) _ _ (by unfold bound; omega)]
  exact hw.ne_nil hv

/-- Without tabs the value is exactly the one given. -/
theorem value_exact_partial (attr v : Str) (ha : AttrName attr) (hv : v ≠ []) (ht : '\t' ∉ v) :
    parseFilter (equalityText attr (escape v)) = .ok (.equality attr v) := by
  obtain ⟨w, hw, h⟩ := structure_safe attr v ha hv
  rw [hw.eq_of_noTab ht] at h; exact h

example : AttrName "userCertificate;binary".toList ∧ (")(uid=*))(|(cn=*".toList : Str) ≠ [] ∧
    '\t' ∉ ")(uid=*))(|(cn=*".toList :=
  ⟨⟨'u', "serCertificate;binary".toList, rfl, by decide, by decide⟩, by decide, by decide⟩

/-- The full statement. -/
def FullExact : Prop :=
  ∀ attr v, AttrName attr → v ≠ [] → parseFilter (equalityText attr (escape v)) = .ok (.equality attr v)

theorem tab_changed : ¬ FullExact := by
  intro H
  have h := H C14.cn ['\t'] C14.cn_name (by decide)
  have : parseFilter (equalityText C14.cn (escape ['\t'])) = .ok (.equality C14.cn [' ', ' ', ' ', ' ']) := by decide +kernel
  rw [this] at h
  cases h

/-- `binary_escape` is exact for all values with characters below 256, tabs included. -/
theorem binary_exact (attr v : Str) (ha : AttrName attr) (hv : v ≠ []) (hs : ∀ c ∈ v, c.toNat < 256) :
    parseFilter (equalityText attr (binaryEscape v)) = .ok (.equality attr v) := by
  obtain ⟨h1, h2⟩ := binaryEscape_enc hs
  unfold parseFilter
  have : '\t' ∉ equalityText attr (binaryEscape v) := by
    unfold equalityText
    simp [attr_noTab ha, h2]
  rw [expandTabs_id this]
  simp only
  rw [parse_equality ha h1 hv _ (by unfold bound; omega)]

example : AttrName C14.cn ∧ ("\t\x00*é".toList : Str) ≠ [] ∧ ∀ c ∈ "\t\x00*é".toList, c.toNat < 256 :=
  ⟨C14.cn_name, by decide, by decide⟩

/-- Beyond that range it is not: the escape of a larger character is read as an escape of its first two digits. -/
theorem binary_wide_changed : parseFilter (equalityText C14.cn (binaryEscape ['Ā'])) =
    .ok (.equality C14.cn [Char.ofNat 0x10, '0']) := by decide +kernel

/-- `smart_escape` gives an exact filter whenever both escapers do. -/
theorem smart_exact (attr v e : Str) (ha : AttrName attr) (hv : v ≠ []) (hs : ∀ c ∈ v, c.toNat < 256) (ht : '\t' ∉ v)
    (he : smartEscape v = .ok e) : parseFilter (equalityText attr e) = .ok (.equality attr v) := by
  unfold smartEscape at he
  split at he
  · cases he
  · split at he
    · cases he; exact binary_exact attr v ha hv hs
    · cases he; exact value_exact_partial attr v ha hv ht

/-- `smart_escape` answers for every value but the empty one. -/
theorem smart_total (v : Str) : (∃ e, smartEscape v = .ok e) ↔ v ≠ [] := by
  unfold smartEscape
  cases v with
  | nil => simp
  | cons c v => simp; split <;> exact ⟨_, rfl⟩

example : smartEscape "é*".toList = .ok "\\e9\\2a".toList ∧ smartEscape "caf*".toList = .ok "caf\\2a".toList := by
  decide +kernel

/-- The share of characters that are not printable ASCII (`string.printable`). -/
def unprintableShare (v : Str) : ℚ :=
  (v.countP fun c => decide (¬ ((' ' ≤ c ∧ c ≤ '~') ∨ ('\t' ≤ c ∧ c ≤ '\r'))) : ℚ) / v.length

/-- Which form `smart_escape` chooses: the binary one iff more than three tenths of the characters are unprintable. -/
theorem smart_choice (v : Str) (hv : v ≠ []) :
    smartEscape v = .ok (if 3 / 10 < unprintableShare v then binaryEscape v else escape v) := by
  have hp : ∀ c : Char, printable c = true ↔ ((' ' ≤ c ∧ c ≤ '~') ∨ ('\t' ≤ c ∧ c ≤ '\r')) := by
    intro c
    have ord : ∀ {a b : Char}, a ≤ b ↔ a.toNat ≤ b.toNat := Iff.rfl
    have e1 : ' '.toNat = 32 := rfl
    have e2 : '~'.toNat = 126 := rfl
    have e3 : '\t'.toNat = 9 := rfl
    have e4 : '\r'.toNat = 13 := rfl
    simp [printable, ord, e1, e2, e3, e4]
  have hl : v.length ≠ 0 := by simpa using hv
  have hpos : (0 : ℚ) < v.length := by exact_mod_cast Nat.pos_of_ne_zero hl
  have hcount : (v.countP fun c => !printable c) =
      v.countP fun c => decide (¬ ((' ' ≤ c ∧ c ≤ '~') ∨ ('\t' ≤ c ∧ c ≤ '\r'))) := by
    congr 1
    funext c
    have := hp c
    cases h : printable c
    · rw [h] at this; simp only [Bool.not_false]; symm; rw [decide_eq_true_iff]; intro hc; exact absurd (this.mpr hc) (by simp)
    · rw [h] at this; simp only [Bool.not_true]; symm; rw [decide_eq_false_iff_not]; exact fun hc => hc (this.mp rfl)
  have hiff : 10 * (v.countP fun c => !printable c) > 3 * v.length ↔ 3 / 10 < unprintableShare v := by
    unfold unprintableShare
    rw [← hcount, div_lt_div_iff₀ (by norm_num) hpos]
    constructor
    · intro h
      have : (3 * v.length : ℚ) < 10 * (v.countP fun c => !printable c) := by exact_mod_cast h
      linarith
    · intro h
      have : (3 * v.length : ℚ) < 10 * (v.countP fun c => !printable c) := by linarith
      exact_mod_cast this
  unfold smartEscape
  rw [if_neg hl]
  by_cases h : 3 / 10 < unprintableShare v
  · rw [if_pos (hiff.mpr h), if_pos h]
  · rw [if_neg (fun h' => h (hiff.mp h')), if_neg h]

/-- Exactly three tenths are not enough. -/
example : smartEscape "éééabcd*()".toList = .ok "éééabcd\\2a\\28\\29".toList ∧
    smartEscape "ééééabc*()".toList = .ok (binaryEscape "ééééabc*()".toList) := by
  decide +kernel

end Verif.C15
