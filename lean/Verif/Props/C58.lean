import Verif.Model.Errors
import Verif.Spec.ResultCode
import Verif.Lemmas.Decimal
import Verif.Lemmas.Utf8
/-
C58  Result codes map to the right error and back.

Full statement: for every code the object obtained for it reports that code in `resultCode`.  It is false for codes without
a class: their `resultCode` is `None` (`unknown_code_lost`), which is what the server then tries to send.
Proved: the statement for every code of RFC 2251 (`known_code_partial`); other codes are kept in `code`
(`unknown_code_kept`); the text form of different codes differs (`text_distinct`).
-/
namespace Verif.C58
open Verif.Errors Verif.Spec

theorem collection_names : ∀ p ∈ collection, 0 ≤ p.1 ∧ p.1 ≤ 80 ∧ resultName p.1.toNat = some p.2 := by decide +kernel

theorem collection_codes : ∀ n, n ≤ 80 → (resultName n = none ↔ collection.find? (fun p => p.1 == (n : Int)) = none) := by decide +kernel

theorem resultName_le {n : Nat} {s : String} (h : resultName n = some s) : n ≤ 80 := by
  by_contra hn
  obtain ⟨k, rfl⟩ : ∃ k, n = k + 81 := ⟨n - 81, by omega⟩
  simp [resultName] at h

/-- The codes of the RFC are the ones with a class. -/
theorem get_known {n : Nat} {s : String} (h : resultName n = some s) (m : Option PyStr) :
    get n m = if n = 0 then .success else .known n s m := by
  have hle := resultName_le h
  have hf := collection_codes n hle
  rw [h] at hf
  cases hc : collection.find? (fun p => p.1 == (n : Int)) with
  | none => rw [hc] at hf; simp at hf
  | some p =>
    obtain ⟨c, t⟩ := p
    have hmem := List.mem_of_find?_eq_some hc
    have heq : c = (n : Int) := by simpa using List.find?_some hc
    subst heq
    obtain ⟨_, _, hname⟩ := collection_names _ hmem
    simp only [Int.toNat_natCast, h, Option.some.injEq] at hname
    subst hname
    unfold Errors.get
    rw [hc]
    by_cases h0 : n = 0
    · subst h0; rfl
    · rw [if_neg h0]
      split
      · rename_i e; simp at e; omega
      · rename_i e; simp at e; rw [e.1, e.2]
      · rename_i e; simp at e

theorem get_unknown {c : Int} (h : c < 0 ∨ resultName c.toNat = none) (m : Option PyStr) : get c m = .unknown c m := by
  unfold Errors.get
  cases hc : collection.find? (fun p => p.1 == c) with
  | none => rfl
  | some p =>
    have hmem := List.mem_of_find?_eq_some hc
    have heq : p.1 = c := by simpa using List.find?_some hc
    obtain ⟨h1, _, h2⟩ := collection_names _ hmem
    rw [heq] at h1 h2
    rcases h with h | h
    · omega
    · rw [h] at h2; cases h2

/-- For every code of the RFC the object reports that code and its name. -/
theorem known_code_partial (n : Nat) (s : String) (h : resultName n = some s) (m : Option PyStr) :
    (get n m).resultCode = some (n : Int) ∧ (get n m).name = some s := by
  rw [get_known h]
  by_cases h0 : n = 0
  · subst h0
    rw [if_pos rfl]
    exact ⟨rfl, h⟩
  · rw [if_neg h0]; exact ⟨rfl, rfl⟩

/-- Code 0, and no other, is success. -/
theorem success_iff (c : Int) (m : Option PyStr) : get c m = .success ↔ c = 0 := by
  constructor
  · intro h
    by_cases hc : c < 0 ∨ resultName c.toNat = none
    · rw [get_unknown hc] at h; cases h
    · simp only [not_or] at hc
      obtain ⟨s, hs⟩ := Option.ne_none_iff_exists'.mp hc.2
      have e : c = (c.toNat : Int) := by omega
      rw [e, get_known hs] at h
      split at h
      · omega
      · cases h
  · rintro rfl; rfl

/-- Codes that are not in the RFC give an error that keeps the code and the message. -/
theorem unknown_code_kept (c : Int) (h : c < 0 ∨ resultName c.toNat = none) (m : Option PyStr) : (get c m).code = some c ∧ get c m = .unknown c m := by
  rw [get_unknown h]; exact ⟨rfl, rfl⟩

/-- But their `resultCode`, which is what the server copies into its response, is `None`. -/
theorem unknown_code_lost (c : Int) (h : c < 0 ∨ resultName c.toNat = none) (m : Option PyStr) : (get c m).resultCode = none := by
  rw [get_unknown h]; rfl

/-- Different codes give different objects. -/
theorem get_injective (c c' : Int) (m m' : Option PyStr) (h : get c m = get c' m') : c = c' := by
  by_cases hc : c < 0 ∨ resultName c.toNat = none
  · rw [get_unknown hc] at h
    by_cases hc' : c' < 0 ∨ resultName c'.toNat = none
    · rw [get_unknown hc'] at h; cases h; rfl
    · simp only [not_or] at hc'
      obtain ⟨s, hs⟩ := Option.ne_none_iff_exists'.mp hc'.2
      have e : c' = (c'.toNat : Int) := by omega
      rw [e, get_known hs] at h
      split at h <;> cases h
  · simp only [not_or] at hc
    obtain ⟨s, hs⟩ := Option.ne_none_iff_exists'.mp hc.2
    have e : c = (c.toNat : Int) := by omega
    by_cases hc' : c' < 0 ∨ resultName c'.toNat = none
    · rw [e, get_known hs, get_unknown hc'] at h
      split at h <;> cases h
    · simp only [not_or] at hc'
      obtain ⟨s', hs'⟩ := Option.ne_none_iff_exists'.mp hc'.2
      have e' : c' = (c'.toNat : Int) := by omega
      rw [e, get_known hs, e', get_known hs'] at h
      split at h <;> split at h <;> first | omega | (cases h; try omega) | skip
      simp at h; omega

/-- The text of an error without message. -/
def plainText (c : Int) : Option Str :=
  if c = 0 then none
  else if c < 0 ∨ resultName c.toNat = none then some ("unknownError(".toList ++ Decimal.ofInt c ++ [')'])
  else (resultName c.toNat).map String.toList

theorem toWire_plain (c : Int) : (get c none).toWire = match plainText c with
    | none => .error .attributeError
    | some t => .ok (octets t) := by
  unfold plainText
  by_cases h0 : c = 0
  · subst h0; rfl
  · rw [if_neg h0]
    by_cases hc : c < 0 ∨ resultName c.toNat = none
    · rw [get_unknown hc, if_pos hc]; rfl
    · rw [if_neg hc]
      simp only [not_or] at hc
      obtain ⟨s, hs⟩ := Option.ne_none_iff_exists'.mp hc.2
      have e : c = (c.toNat : Int) := by omega
      have hg : get c none = .known c s none := by
        rw [e, get_known hs, if_neg (by omega)]
      rw [hg, hs]; rfl

theorem known_text : ∀ n, n ≤ 80 → ∀ m, m ≤ 80 → resultName n = resultName m → resultName n ≠ none → n = m := by decide +kernel

theorem known_not_unknown : ∀ n, n ≤ 80 → ((resultName n).map String.toList).map (·.take 13) ≠ some "unknownError(".toList := by decide +kernel

/-- The text form of different codes differs, when no message is given. -/
theorem text_distinct (c c' : Int) (b : Bytes) (h : (get c none).toWire = .ok b) (h' : (get c' none).toWire = .ok b) : c = c' := by
  rw [toWire_plain] at h h'
  cases ht : plainText c with
  | none => rw [ht] at h; cases h
  | some t =>
    cases ht' : plainText c' with
    | none => rw [ht'] at h'; cases h'
    | some t' =>
      rw [ht] at h; rw [ht'] at h'
      simp only [Except.ok.injEq] at h h'
      have e : t = t' := by
        have h1 := Utf8.decode_encode t
        have h2 := Utf8.decode_encode t'
        unfold octets at h h'
        rw [h] at h1; rw [h', h1] at h2
        exact Except.ok.inj h2
      subst e
      have zero : ∀ k, plainText k = some t → k ≠ 0 := by rintro k hk rfl; simp [plainText] at hk
      have known : ∀ k : Int, plainText k = some t → ¬ (k < 0 ∨ resultName k.toNat = none) →
          ∃ s, resultName k.toNat = some s ∧ s.toList = t ∧ k.toNat ≤ 80 ∧ 0 ≤ k := by
        intro k hk hn
        have h0 := zero k hk
        unfold plainText at hk
        rw [if_neg h0, if_neg hn] at hk
        simp only [not_or] at hn
        obtain ⟨s, hs⟩ := Option.ne_none_iff_exists'.mp hn.2
        rw [hs] at hk
        exact ⟨s, hs, by simpa using hk, resultName_le hs, by omega⟩
      have unk : ∀ k : Int, plainText k = some t → (k < 0 ∨ resultName k.toNat = none) → t = "unknownError(".toList ++ Decimal.ofInt k ++ [')'] := by
        intro k hk hn
        have h0 := zero k hk
        unfold plainText at hk
        rw [if_neg h0, if_pos hn] at hk
        exact (Option.some.inj hk).symm
      have mixed : ∀ k k' : Int, plainText k = some t → plainText k' = some t → ¬ (k < 0 ∨ resultName k.toNat = none) →
          (k' < 0 ∨ resultName k'.toNat = none) → False := by
        intro k k' hk hk' h1 h2
        obtain ⟨s, hs, hst, hle, _⟩ := known k hk h1
        have e := unk k' hk' h2
        apply known_not_unknown k.toNat hle
        rw [hs]
        simp only [Option.map_some, hst, e]
        rfl
      by_cases h1 : c < 0 ∨ resultName c.toNat = none <;> by_cases h2 : c' < 0 ∨ resultName c'.toNat = none
      · have e1 := unk c ht h1
        have e2 := unk c' ht' h2
        rw [e1] at e2
        have := List.append_cancel_right e2
        exact Decimal.ofInt_injective (List.append_cancel_left this)
      · exact (mixed c' c ht' ht h2 h1).elim
      · exact (mixed c c' ht ht' h1 h2).elim
      · obtain ⟨s, hs, hst, hle, hn⟩ := known c ht h1
        obtain ⟨s', hs', hst', hle', hn'⟩ := known c' ht' h2
        have : s = s' := String.toList_injective (hst.trans hst'.symm)
        subst this
        have := known_text _ hle _ hle' (by rw [hs, hs']) (by rw [hs]; simp)
        omega

/-- Known and unknown codes, with and without a message. -/
example : (get 32 (some (.text "x".toList))).toWire = .ok (octets "noSuchObject: x".toList) ∧
    (get 32 (some (.text []))).toWire = .ok (octets "noSuchObject".toList) ∧
    (get 4711 none).toWire = .ok (octets "unknownError(4711)".toList) ∧ (get 4711 none).resultCode = none ∧
    (get 15 none).code = some 15 := by decide +kernel

/-- The text of any error but success: the name of the code, and the message after a colon if there is one. -/
theorem text_format (c : Int) (h0 : c ≠ 0) (m : Option PyStr) : ∃ name, plainText c = some name ∧
    (get c m).toWire = .ok (octets (match m with
      | some (.text (x :: t)) => name ++ ": ".toList ++ x :: t
      | _ => name) ++ match m with
      | some (.bytes (x :: b)) => octets ": ".toList ++ x :: b
      | _ => []) := by
  have enc : ∀ s t : Str, octets (s ++ t) = octets s ++ octets t := fun s t => by simp [octets, Utf8.encode]
  have wire : ∀ name : Str, (match truthy m with
      | some b => .ok (octets name ++ octets [':', ' '] ++ b)
      | none => .ok (octets name) : Py Bytes) = .ok (octets (match m with
      | some (.text (x :: t)) => name ++ ": ".toList ++ x :: t
      | _ => name) ++ match m with
      | some (.bytes (x :: b)) => octets ": ".toList ++ x :: b
      | _ => []) := by
    intro name
    match m with
    | none => simp [truthy]
    | some (.text []) => simp [truthy, PyStr.toBytes, Utf8.encode]
    | some (.bytes []) => simp [truthy, PyStr.toBytes]
    | some (.bytes (x :: b)) => simp [truthy, PyStr.toBytes]
    | some (.text (x :: t)) =>
      have hne : Utf8.encode (x :: t) ≠ [] := by
        intro e
        have := Utf8.decode_encode (x :: t)
        rw [e] at this
        have this : (Except.ok [] : Py Str) = .ok (x :: t) := this
        cases this
      have ht : truthy (some (.text (x :: t))) = some (Utf8.encode (x :: t)) := by
        unfold truthy
        exact if_neg hne
      rw [ht]
      simp only [List.append_nil]
      rw [enc, enc]
      rfl
  by_cases hc : c < 0 ∨ resultName c.toNat = none
  · refine ⟨_, by unfold plainText; rw [if_neg h0, if_pos hc], ?_⟩
    rw [get_unknown hc]
    exact wire _
  · have hp : plainText c = (resultName c.toNat).map String.toList := by unfold plainText; rw [if_neg h0, if_neg hc]
    simp only [not_or] at hc
    obtain ⟨s, hs⟩ := Option.ne_none_iff_exists'.mp hc.2
    have e : c = (c.toNat : Int) := by omega
    refine ⟨s.toList, by rw [hp, hs]; rfl, ?_⟩
    have hg : get c m = .known c s m := by
      rw [e, get_known hs, if_neg (by omega)]
    rw [hg]
    exact wire _

end Verif.C58
