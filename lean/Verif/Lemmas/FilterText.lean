import Verif.Spec.FilterText
/-
Helper lemmas about the filter printer and parser.
-/
namespace Verif.FilterText
open Verif.Spec

/-! ### Escaping -/

/-- `Enc v t`: the text `t` is read as the value `v`. -/
inductive Enc : Str → Str → Prop where
  | nil : Enc [] []
  | plain (c : Char) (v t : Str) : c ∉ valueStops → Enc v t → Enc (c :: v) (c :: t)
  | hex (c h l : Char) (v t : Str) (a b : Nat) : hexValue h = some a → hexValue l = some b →
      Char.ofNat (16 * a + b) = c → Enc v t → Enc (c :: v) ('\\' :: h :: l :: t)

theorem Enc.append {v t v' t' : Str} (h : Enc v t) (h' : Enc v' t') : Enc (v ++ v') (t ++ t') := by
  induction h with
  | nil => exact h'
  | plain c v t hc _ ih => exact .plain _ _ _ hc ih
  | hex c x y v t a b h1 h2 h3 _ ih => exact .hex _ _ _ _ _ a b h1 h2 h3 ih

theorem Enc.nil_iff {v t : Str} (h : Enc v t) : v = [] ↔ t = [] := by
  cases h <;> simp

theorem replaceChar_append (c : Char) (r s t : Str) :
    replaceChar c r (s ++ t) = replaceChar c r s ++ replaceChar c r t := by
  simp [replaceChar]

theorem escape_append (s t : Str) : escape (s ++ t) = escape s ++ escape t := by
  simp [escape, replaceChar_append]

theorem escape_plain {c : Char} (h : c ∉ valueStops) : escape [c] = [c] := by
  simp only [valueStops, List.mem_cons, List.not_mem_nil, or_false, not_or] at h
  simp [escape, replaceChar, h]

theorem escape_char (c : Char) : Enc [c] (escape [c]) := by
  by_cases h : c ∈ valueStops
  · simp only [valueStops, List.mem_cons, List.not_mem_nil, or_false] at h
    rcases h with rfl | rfl | rfl | rfl | rfl
    · exact .hex _ _ _ _ _ 2 10 (by decide) (by decide) (by decide) .nil
    · exact .hex _ _ _ _ _ 2 8 (by decide) (by decide) (by decide) .nil
    · exact .hex _ _ _ _ _ 2 9 (by decide) (by decide) (by decide) .nil
    · exact .hex _ _ _ _ _ 5 12 (by decide) (by decide) (by decide) .nil
    · exact .hex _ _ _ _ _ 0 0 (by decide) (by decide) (by decide) .nil
  · rw [escape_plain h]; exact .plain _ _ _ h .nil

theorem escape_enc (s : Str) : Enc s (escape s) := by
  induction s with
  | nil => exact .nil
  | cons c s ih =>
    have := Enc.append (escape_char c) ih
    rwa [← escape_append] at this

theorem escape_noTab {s : Str} (h : '\t' ∉ s) : '\t' ∉ escape s := by
  induction s with
  | nil => simp [escape, replaceChar]
  | cons c s ih =>
    have : c :: s = [c] ++ s := rfl
    rw [this, escape_append, List.mem_append, not_or]
    refine ⟨?_, ih (fun hc => h (by simp [hc]))⟩
    by_cases hs : c ∈ valueStops
    · simp only [valueStops, List.mem_cons, List.not_mem_nil, or_false] at hs
      rcases hs with rfl | rfl | rfl | rfl | rfl <;> decide
    · rw [escape_plain hs]
      intro hm; exact h (by simp only [List.mem_singleton] at hm; exact List.mem_cons.mpr (.inl hm))

theorem hexLower_value {n : Nat} (h : n < 16) : hexValue (hexLower n) = some n := by
  have : ∀ k : Fin 16, hexValue (hexLower k.val) = some k.val := by decide
  exact this ⟨n, h⟩

theorem hexLower_ne_tab {n : Nat} (h : n < 16) : hexLower n ≠ '\t' := by
  have : ∀ k : Fin 16, hexLower k.val ≠ '\t' := by decide
  exact this ⟨n, h⟩

theorem hex02_small {n : Nat} (h : n < 256) : hex02 n = [hexLower (n / 16), hexLower (n % 16)] := by
  unfold hex02
  split
  · rename_i h1
    rw [Nat.div_eq_of_lt h1, Nat.mod_eq_of_lt h1]; rfl
  · rename_i h1
    rw [hexDigits, if_neg h1, hexDigits, if_pos (by omega)]; rfl

theorem binaryEscape_enc {s : Str} (h : ∀ c ∈ s, c.toNat < 256) : Enc s (binaryEscape s) ∧ '\t' ∉ binaryEscape s := by
  induction s with
  | nil => exact ⟨.nil, by simp [binaryEscape]⟩
  | cons c s ih =>
    have ih := ih (fun x hx => h x (by simp [hx]))
    have hc := h c (by simp)
    have : binaryEscape (c :: s) = '\\' :: hexLower (c.toNat / 16) :: hexLower (c.toNat % 16) :: binaryEscape s := by
      unfold binaryEscape
      rw [List.flatMap_cons, hex02_small hc]; rfl
    rw [this]
    refine ⟨.hex _ _ _ _ _ _ _ (hexLower_value (by omega)) (hexLower_value (by omega)) ?_ ih.1, ?_⟩
    · rw [show 16 * (c.toNat / 16) + c.toNat % 16 = c.toNat by omega, Char.ofNat_toNat]
    · have h1 := hexLower_ne_tab (n := c.toNat / 16) (by omega)
      have h2 := hexLower_ne_tab (n := c.toNat % 16) (by omega)
      simp only [List.mem_cons, not_or]
      exact ⟨by decide, Ne.symm h1, Ne.symm h2, ih.2⟩

/-! ### Reading values and names -/

theorem pChars_plain {c : Char} (h : c ∉ valueStops) (s : Str) : pChars (c :: s) = (c :: (pChars s).1, (pChars s).2) := by
  rw [pChars.eq_def]
  split
  · rename_i e; cases e
  · rename_i e; injection e with e1 e2; subst e1; exact absurd (by decide) h
  · rename_i e; injection e with e1 e2; subst e1 e2; rw [if_neg h]

theorem pChars_stop {c : Char} (h : c ∈ valueStops) (hb : c ≠ '\\') (s : Str) : pChars (c :: s) = ([], c :: s) := by
  rw [pChars.eq_def]
  split
  · rename_i e; cases e
  · rename_i e; injection e with e1 e2; exact absurd e1 hb
  · rename_i e; injection e with e1 e2; subst e1 e2; rw [if_pos h]

theorem pChars_enc {v t : Str} (h : Enc v t) (rest : Str) :
    pChars (t ++ rest) = (v ++ (pChars rest).1, (pChars rest).2) := by
  induction h with
  | nil => rfl
  | plain c v t hc _ ih => rw [List.cons_append, pChars_plain hc, ih]; rfl
  | hex c x y v t a b h1 h2 h3 _ ih =>
    rw [List.cons_append, List.cons_append, List.cons_append, pChars.eq_def]
    simp only [h1, h2, h3, ih]
    rfl

/-- The rest of the input begins with a character that ends a value. -/
def Ends (s : Str) : Prop := ∃ c r, s = c :: r ∧ c ∈ valueStops ∧ c ≠ '\\'

theorem pChars_ends {s : Str} (h : Ends s) : pChars s = ([], s) := by
  obtain ⟨c, r, rfl, h1, h2⟩ := h
  exact pChars_stop h1 h2 r

theorem pValue_enc {v t : Str} (h : Enc v t) (hv : v ≠ []) {rest : Str} (hr : Ends rest) :
    pValue (t ++ rest) = some (v, rest) := by
  unfold pValue
  rw [pChars_enc h, pChars_ends hr, List.append_nil]
  cases v with
  | nil => exact absurd rfl hv
  | cons c v => rfl

theorem pValue_ends {s : Str} (h : Ends s) : pValue s = none := by
  unfold pValue; rw [pChars_ends h]

theorem takeWhile_append_stop {p : Char → Bool} {t : Str} (ht : ∀ x ∈ t, p x = true) {c : Char} (hc : p c = false)
    (r : Str) : (t ++ c :: r).takeWhile p = t ∧ (t ++ c :: r).dropWhile p = c :: r := by
  induction t with
  | nil => simp [hc]
  | cons x t ih =>
    have hx := ht x (by simp)
    have := ih (fun y hy => ht y (by simp [hy]))
    simp [hx, this]

theorem letter_iff (c : Char) : Letter c ↔ isLetter c = true := by simp [Letter, isLetter]

theorem digit_iff (c : Char) : Digit c ↔ isDigit c = true := by simp [Digit, isDigit]

theorem attrChar_iff (c : Char) : (Letter c ∨ Digit c ∨ c = ';' ∨ c = '-') ↔ isAttrChar c = true := by
  simp [isAttrChar, letter_iff, digit_iff, or_assoc]

theorem attrName_iff (a : Str) : AttrName a ↔ ∃ c t, a = c :: t ∧ isLetter c = true ∧ ∀ x ∈ t, isAttrChar x = true := by
  simp only [AttrName, letter_iff, ← attrChar_iff]

theorem pAttr_name {a : Str} (ha : AttrName a) {c : Char} (hc : isAttrChar c = false) (r : Str) :
    pAttr (a ++ c :: r) = some (a, c :: r) := by
  obtain ⟨x, t, rfl, hx, ht⟩ := (attrName_iff _).mp ha
  have := takeWhile_append_stop ht hc r
  rw [List.cons_append, pAttr, if_pos hx, this.1, this.2]

theorem pAttr_none {c : Char} (hc : isLetter c = false) (r : Str) : pAttr (c :: r) = none := by
  rw [pAttr, if_neg (by simp [hc])]

theorem pLit_self (l s : Str) : pLit l (l ++ s) = some s := by
  induction l with
  | nil => rfl
  | cons c l ih => rw [List.cons_append, pLit, if_pos rfl, ih]

theorem pLit_one {c : Char} {s : Str} : pLit [c] (c :: s) = some s := pLit_self [c] s

theorem pLit_two {c d : Char} {s : Str} : pLit [c, d] (c :: d :: s) = some s := pLit_self [c, d] s

theorem pLit_ne {c d : Char} (h : c ≠ d) (l s : Str) : pLit (c :: l) (d :: s) = none := by
  rw [pLit, if_neg h]

theorem pLit_spec {l s r : Str} (h : pLit l s = some r) : s = l ++ r := by
  induction l generalizing s with
  | nil => cases h; rfl
  | cons c l ih =>
    cases s with
    | nil => cases h
    | cons d s =>
      rw [pLit] at h
      split at h
      · rename_i e; subst e; rw [ih h]; rfl
      · cases h

/-! ### Items -/

theorem pSimple_of_attr {a : Str} (ha : AttrName a) {c : Char} (hc : isAttrChar c = false) (r : Str)
    (hne : c ≠ '=' ∧ c ≠ '~' ∧ c ≠ '>' ∧ c ≠ '<') : pSimple (a ++ c :: r) = none := by
  unfold pSimple
  simp only [pAttr_name ha hc, Option.bind_eq_bind, Option.bind_some]
  unfold pFilterType
  rw [pLit_ne (Ne.symm hne.1), pLit_ne (Ne.symm hne.2.1), pLit_ne (Ne.symm hne.2.2.1), pLit_ne (Ne.symm hne.2.2.2)]
  rfl

theorem pPresent_of_attr {a : Str} (ha : AttrName a) {c : Char} (hc : isAttrChar c = false) (r : Str) (hne : c ≠ '=') :
    pPresent (a ++ c :: r) = none := by
  unfold pPresent
  simp only [pAttr_name ha hc, Option.bind_eq_bind, Option.bind_some]
  rw [pLit_ne (Ne.symm hne)]; rfl

theorem pSubstring_of_attr {a : Str} (ha : AttrName a) {c : Char} (hc : isAttrChar c = false) (r : Str) (hne : c ≠ '=') :
    pSubstring (a ++ c :: r) = none := by
  unfold pSubstring
  simp only [pAttr_name ha hc, Option.bind_eq_bind, Option.bind_some]
  rw [pLit_ne (Ne.symm hne)]; rfl

theorem pExtensible_of_attr {a : Str} (ha : AttrName a) {c : Char} (hc : isAttrChar c = false) (r : Str) (hne : c ≠ ':') :
    pExtensible (a ++ c :: r) = none := by
  unfold pExtensible
  have h1 : pExtAttr (a ++ c :: r) = none := by
    unfold pExtAttr
    simp only [pAttr_name ha hc, Option.bind_eq_bind, Option.bind_some]
    unfold pDnFlag
    rw [pLit_ne (Ne.symm hne)]
    unfold pOpt pColonRule
    simp only [pLit_ne (Ne.symm hne), Option.bind_eq_bind, Option.bind_none]
  rw [h1]
  obtain ⟨x, t, rfl, hx, ht⟩ := ha
  have hx : ':' ≠ x := by rintro rfl; revert hx; decide
  unfold pExtNoAttr pDnFlag pColonRule
  rw [List.cons_append]
  simp only [pLit_ne hx, Option.bind_eq_bind, Option.bind_none]

theorem ends_close (r : Str) : Ends (')' :: r) := ⟨_, _, rfl, by decide, by decide⟩
theorem ends_star (r : Str) : Ends ('*' :: r) := ⟨_, _, rfl, by decide, by decide⟩

theorem pItem_equality {a v t : Str} (ha : AttrName a) (h : Enc v t) (hv : v ≠ []) (r : Str) :
    pItem (a ++ '=' :: (t ++ ')' :: r)) = some (.equality a v, ')' :: r) := by
  have h1 : pSimple (a ++ '=' :: (t ++ ')' :: r)) = some (.equality a v, ')' :: r) := by
    unfold pSimple
    simp only [pAttr_name ha (c := '=') (by decide), Option.bind_eq_bind, Option.bind_some]
    unfold pFilterType
    rw [pLit_one]
    simp only [Option.bind_some, pValue_enc h hv (ends_close r)]
    rfl
  have h2 : pPresent (a ++ '=' :: (t ++ ')' :: r)) = none := by
    unfold pPresent
    simp only [pAttr_name ha (c := '=') (by decide), Option.bind_eq_bind, Option.bind_some]
    cases h with
    | nil => exact absurd rfl hv
    | plain c v t hc _ =>
      rw [List.cons_append, pLit, if_pos rfl, pLit_ne]
      · rfl
      · rintro rfl; exact hc (by decide)
    | hex => rfl
  have h3 : pSubstring (a ++ '=' :: (t ++ ')' :: r)) = none := by
    unfold pSubstring
    simp only [pAttr_name ha (c := '=') (by decide), Option.bind_eq_bind, Option.bind_some]
    rw [pLit_one]
    unfold pOpt
    simp only [Option.bind_some, pValue_enc h hv (ends_close r)]
    rw [pLit_ne (by decide)]; rfl
  unfold pItem
  rw [h1, h2, h3, pExtensible_of_attr ha (by decide) _ (by decide)]; rfl

theorem pItem_other {a v t : Str} (ha : AttrName a) (h : Enc v t) (hv : v ≠ []) (r : Str) {c : Char}
    {mk : Str → Str → Filter} (hc : isAttrChar c = false) (hne : c ≠ '=') (hne' : c ≠ ':')
    (hty : ∀ s, pFilterType (c :: '=' :: s) = some (mk, s)) :
    pItem (a ++ c :: '=' :: (t ++ ')' :: r)) = some (mk a v, ')' :: r) := by
  have h1 : pSimple (a ++ c :: '=' :: (t ++ ')' :: r)) = some (mk a v, ')' :: r) := by
    unfold pSimple
    simp only [pAttr_name ha hc, Option.bind_eq_bind, Option.bind_some, hty, pValue_enc h hv (ends_close r)]
    rfl
  unfold pItem
  rw [h1, pPresent_of_attr ha hc _ hne, pSubstring_of_attr ha hc _ hne, pExtensible_of_attr ha hc _ hne']
  rfl

theorem pAnyValue_none {s : Str} (h : pValue s = none) : pAnyValue s = none := by
  unfold pAnyValue; rw [h]; rfl

theorem pAnyValue_close {v t : Str} (h : Enc v t) (r : Str) : pAnyValue (t ++ ')' :: r) = none := by
  by_cases hv : v = []
  · have : t = [] := h.nil_iff.mp hv
    subst this
    exact pAnyValue_none (pValue_ends (ends_close r))
  · unfold pAnyValue
    simp only [pValue_enc h hv (ends_close r), Option.bind_eq_bind, Option.bind_some]
    rw [pLit_ne (by decide)]; rfl

theorem pAnyValue_star {v t : Str} (h : Enc v t) (hv : v ≠ []) (r : Str) : pAnyValue (t ++ '*' :: r) = some (v, r) := by
  unfold pAnyValue
  simp only [pValue_enc h hv (ends_star r), Option.bind_eq_bind, Option.bind_some, pLit_one]
  rfl

/-- The texts of the inner pieces, each followed by a star. -/
def starred (ts : List Str) : Str := ts.flatMap fun t => t ++ ['*']

theorem pAnyValues_spec (n : Nat) (vts : List (Str × Str)) (h : ∀ p ∈ vts, Enc p.1 p.2 ∧ p.1 ≠ []) {s : Str}
    (hs : pAnyValue s = none) (hn : vts.length ≤ n) :
    pAnyValues n (starred (vts.map Prod.snd) ++ s) = (vts.map Prod.fst, s) := by
  induction vts generalizing n with
  | nil =>
    cases n with
    | zero => rfl
    | succ n => simp only [starred, List.map_nil, List.flatMap_nil, List.nil_append, pAnyValues, hs]
  | cons p vts ih =>
    cases n with
    | zero => simp at hn
    | succ n =>
      have hp := h p (by simp)
      have e : starred ((p :: vts).map Prod.snd) ++ s = p.2 ++ '*' :: (starred (vts.map Prod.snd) ++ s) := by
        simp [starred]
      rw [e, pAnyValues, pAnyValue_star hp.1 hp.2]
      simp only
      rw [ih n (fun q hq => h q (by simp [hq])) (by simpa using hn)]
      rfl

theorem starred_length (vts : List (Str × Str)) : vts.length ≤ (starred (vts.map Prod.snd)).length := by
  induction vts with
  | nil => simp [starred]
  | cons p vts ih => simp [starred] at ih ⊢; omega

theorem pOpt_value {v : Option Str} {t : Str} (h : Enc (v.getD []) t) (hv : ∀ x ∈ v, x ≠ []) {s : Str} (hs : Ends s) :
    pOpt pValue (t ++ s) = (v, s) := by
  unfold pOpt
  cases v with
  | none =>
    have : t = [] := h.nil_iff.mp rfl
    subst this
    rw [List.nil_append, pValue_ends hs]
  | some v => rw [pValue_enc h (hv v rfl) hs]; rfl

theorem pSubstring_text {a : Str} (ha : AttrName a) {i f : Option Str} {ti tf : Str} {vts : List (Str × Str)}
    (hi : Enc (i.getD []) ti) (hi' : ∀ x ∈ i, x ≠ []) (hf : Enc (f.getD []) tf) (hf' : ∀ x ∈ f, x ≠ [])
    (hv : ∀ p ∈ vts, Enc p.1 p.2 ∧ p.1 ≠ []) (r : Str) :
    pSubstring (a ++ '=' :: (ti ++ '*' :: (starred (vts.map Prod.snd) ++ (tf ++ ')' :: r)))) =
      some (.substrings a (pieces i (vts.map Prod.fst) f), ')' :: r) := by
  unfold pSubstring
  simp only [pAttr_name ha (c := '=') (by decide), Option.bind_eq_bind, Option.bind_some]
  rw [pLit_one]
  simp only [Option.bind_some]
  rw [pOpt_value hi hi' (ends_star _)]
  simp only
  rw [pLit_one]
  simp only [Option.bind_some]
  rw [pAnyValues_spec _ vts hv (pAnyValue_close hf r)
    (Nat.le_trans (starred_length vts) (by simp))]
  simp only
  rw [pOpt_value hf hf' (ends_close r)]
  rfl

theorem pItem_substrings {a : Str} (ha : AttrName a) {i f : Option Str} {ti tf : Str} {vts : List (Str × Str)}
    (hi : Enc (i.getD []) ti) (hi' : ∀ x ∈ i, x ≠ []) (hf : Enc (f.getD []) tf) (hf' : ∀ x ∈ f, x ≠ [])
    (hv : ∀ p ∈ vts, Enc p.1 p.2 ∧ p.1 ≠ []) (hne : pieces i (vts.map Prod.fst) f ≠ []) (r : Str) :
    pItem (a ++ '=' :: (ti ++ '*' :: (starred (vts.map Prod.snd) ++ (tf ++ ')' :: r)))) =
      some (.substrings a (pieces i (vts.map Prod.fst) f), ')' :: r) := by
  have hsub := pSubstring_text ha hi hi' hf hf' hv r
  have hext := pExtensible_of_attr ha (c := '=') (by decide)
    (ti ++ '*' :: (starred (vts.map Prod.snd) ++ (tf ++ ')' :: r))) (by decide)
  have hlen : (')' :: r).length < ('*' :: (starred (vts.map Prod.snd) ++ (tf ++ ')' :: r))).length := by
    simp; omega
  unfold pItem
  rw [hsub, hext]
  cases hti : ti with
  | nil =>
    have hin : i = none := by
      cases i with
      | none => rfl
      | some x =>
        have := hi.nil_iff.mpr hti
        exact absurd this (hi' x rfl)
    have hs : pSimple (a ++ '=' :: ([] ++ '*' :: (starred (vts.map Prod.snd) ++ (tf ++ ')' :: r)))) = none := by
      unfold pSimple
      simp only [pAttr_name ha (c := '=') (by decide), Option.bind_eq_bind, Option.bind_some]
      unfold pFilterType
      rw [pLit_one]
      simp only [Option.bind_some, List.nil_append]
      rw [pValue_ends (ends_star _)]; rfl
    have hp : pPresent (a ++ '=' :: ([] ++ '*' :: (starred (vts.map Prod.snd) ++ (tf ++ ')' :: r)))) =
        some (.present a, starred (vts.map Prod.snd) ++ (tf ++ ')' :: r)) := by
      unfold pPresent
      simp only [pAttr_name ha (c := '=') (by decide), Option.bind_eq_bind, Option.bind_some, List.nil_append]
      rw [pLit_two]
      rfl
    rw [hs, hp]
    have hlt : (')' :: r).length < (starred (vts.map Prod.snd) ++ (tf ++ ')' :: r)).length := by
      cases vts with
      | cons p vts => simp [starred]; omega
      | nil =>
        cases f with
        | none => rw [hin] at hne; simp [pieces] at hne
        | some x =>
          have hx := hf' x rfl
          cases htf : tf with
          | nil => exact absurd (hf.nil_iff.mpr htf) hx
          | cons c tf => simp [starred]; omega
    simp only [longer]
    rw [if_pos hlt]
  | cons c t =>
    have hiv : i.getD [] ≠ [] := fun e => by rw [hi.nil_iff.mp e] at hti; cases hti
    rw [← hti]
    have hs : pSimple (a ++ '=' :: (ti ++ '*' :: (starred (vts.map Prod.snd) ++ (tf ++ ')' :: r)))) =
        some (.equality a (i.getD []), '*' :: (starred (vts.map Prod.snd) ++ (tf ++ ')' :: r))) := by
      unfold pSimple
      simp only [pAttr_name ha (c := '=') (by decide), Option.bind_eq_bind, Option.bind_some]
      unfold pFilterType
      rw [pLit_one]
      simp only [Option.bind_some]
      rw [pValue_enc hi hiv (ends_star _)]; rfl
    have hp : pPresent (a ++ '=' :: (ti ++ '*' :: (starred (vts.map Prod.snd) ++ (tf ++ ')' :: r)))) = none := by
      unfold pPresent
      simp only [pAttr_name ha (c := '=') (by decide), Option.bind_eq_bind, Option.bind_some]
      generalize i.getD [] = v at hi hiv
      cases hi with
      | nil => exact absurd rfl hiv
      | plain c v t hc _ =>
        rw [List.cons_append, pLit, if_pos rfl, pLit_ne]
        · rfl
        · rintro rfl; exact hc (by decide)
      | hex => rfl
    rw [hs, hp]
    simp only [longer]
    rw [if_pos hlen]

theorem pItem_present {a : Str} (ha : AttrName a) (r : Str) :
    pItem (a ++ '=' :: '*' :: ')' :: r) = some (.present a, ')' :: r) := by
  have hs : pSimple (a ++ '=' :: '*' :: ')' :: r) = none := by
    unfold pSimple
    simp only [pAttr_name ha (c := '=') (by decide), Option.bind_eq_bind, Option.bind_some]
    unfold pFilterType
    rw [pLit_one]
    simp only [Option.bind_some]
    rw [pValue_ends (ends_star _)]; rfl
  have hp : pPresent (a ++ '=' :: '*' :: ')' :: r) = some (.present a, ')' :: r) := by
    unfold pPresent
    simp only [pAttr_name ha (c := '=') (by decide), Option.bind_eq_bind, Option.bind_some]
    rw [pLit_two]
    rfl
  have hsub := pSubstring_text ha (i := none) (f := none) (ti := []) (tf := []) (vts := []) .nil (by simp) .nil (by simp)
    (by simp) r
  have hext := pExtensible_of_attr ha (c := '=') (by decide) ('*' :: ')' :: r) (by decide)
  unfold pItem
  rw [hs, hp, hext]
  simp only [starred, List.map_nil, List.flatMap_nil, List.nil_append] at hsub
  rw [hsub]
  simp [longer]

/-! ### Matching rules -/

theorem pDigits_none {s : Str} (h : ∀ c r, s = c :: r → isDigit c = false) : pDigits s = none := by
  unfold pDigits
  cases s with
  | nil => rfl
  | cons c s => simp [h c s rfl]

theorem letter_not_digit {c : Char} (h : isLetter c = true) : isDigit c = false := by
  simp only [isLetter, isDigit, Bool.or_eq_true, Bool.and_eq_true, decide_eq_true_eq, Bool.and_eq_false_iff,
    decide_eq_false_iff_not] at *
  simp only [Char.le_def, UInt32.le_iff_toNat_le] at *
  rw [show 'a'.val.toNat = 97 from rfl, show 'z'.val.toNat = 122 from rfl, show 'A'.val.toNat = 65 from rfl,
    show 'Z'.val.toNat = 90 from rfl] at h
  rw [show '0'.val.toNat = 48 from rfl, show '9'.val.toNat = 57 from rfl]
  omega

theorem pDigits_spec {ds : Str} (hne : ds ≠ []) (hd : ∀ x ∈ ds, isDigit x = true) {c : Char} (hc : isDigit c = false)
    (r : Str) : pDigits (ds ++ c :: r) = some (ds, c :: r) := by
  unfold pDigits
  have := takeWhile_append_stop hd hc r
  rw [this.1, this.2]
  cases ds with
  | nil => exact absurd rfl hne
  | cons d ds => rfl

theorem pDotted_spec {o : Str} (h : NumericOid o) (n : Nat) (hn : o.length + 1 ≤ n) (r : Str) :
    pDotted n ('.' :: (o ++ ':' :: r)) = ('.' :: o, ':' :: r) := by
  induction h generalizing n with
  | single ds hne hd =>
    cases n with
    | zero => omega
    | succ n =>
      rw [pDotted]
      simp only [pDigits_spec hne (fun x hx => (digit_iff x).mp (hd x hx)) (c := ':') (by decide) r]
      have : pDotted n (':' :: r) = ([], ':' :: r) := by cases n <;> rfl
      rw [this]; simp
  | dot ds o hne hd _ ih =>
    cases n with
    | zero => omega
    | succ n =>
      rw [List.append_assoc, pDotted]
      simp only [List.cons_append, pDigits_spec hne (fun x hx => (digit_iff x).mp (hd x hx)) (c := '.') (by decide)]
      rw [ih n (by simp at hn; omega)]

theorem pNumericOid_spec {o : Str} (h : NumericOid o) (r : Str) : pNumericOid (o ++ ':' :: r) = some (o, ':' :: r) := by
  cases h with
  | single ds hne hd =>
    unfold pNumericOid
    simp only [pDigits_spec hne (fun x hx => (digit_iff x).mp (hd x hx)) (c := ':') (by decide) r, Option.bind_eq_bind, Option.bind_some]
    have : ∀ n, pDotted n (':' :: r) = ([], ':' :: r) := by intro n; cases n <;> rfl
    rw [this]; simp
  | dot ds o hne hd ho =>
    unfold pNumericOid
    rw [List.append_assoc]
    simp only [List.cons_append, pDigits_spec hne (fun x hx => (digit_iff x).mp (hd x hx)) (c := '.') (by decide), Option.bind_eq_bind, Option.bind_some]
    rw [pDotted_spec ho _ (by simp)]
    rfl

theorem pMatchingRule_spec {o : Str} (h : RuleName o) (r : Str) : pMatchingRule (o ++ ':' :: r) = some (o, ':' :: r) := by
  unfold pMatchingRule
  rcases h with h | h
  · rw [pNumericOid_spec h]
  · have h1 := pAttr_name h (c := ':') (by decide) r
    obtain ⟨c, t, rfl, hc, ht⟩ := (attrName_iff _).mp h
    have : pNumericOid (c :: t ++ ':' :: r) = none := by
      unfold pNumericOid
      rw [pDigits_none]
      · rfl
      · intro d s e; injection e with e1 e2; subst e1; exact letter_not_digit hc
    rw [this]; exact h1

theorem pColonRule_spec {o : Str} (h : RuleName o) (r : Str) :
    pColonRule (':' :: (o ++ ':' :: r)) = some (o, ':' :: r) := by
  unfold pColonRule
  rw [pLit_one]
  exact pMatchingRule_spec h r

theorem pColonRule_eq (r : Str) : pColonRule (':' :: '=' :: r) = none := by
  unfold pColonRule
  rw [pLit_one]
  show pMatchingRule ('=' :: r) = none
  unfold pMatchingRule pNumericOid
  rw [pDigits_none]
  · exact pAttr_none (by decide) r
  · intro c s e; injection e with e1 e2; subst e1; decide

/-- The text of the DN flag. -/
def dnText (d : Bool) : Str := if d = true then [':', 'd', 'n'] else []

theorem pDnFlag_spec (d : Bool) {s : Str} (h : d = false → ¬ [':', 'd', 'n'] <+: s) : pDnFlag (dnText d ++ s) = (d, s) := by
  unfold pDnFlag
  cases d with
  | true => rw [show dnText true = [':', 'd', 'n'] from rfl, pLit_self]
  | false =>
    have : pLit [':', 'd', 'n'] s = none := by
      cases hl : pLit [':', 'd', 'n'] s with
      | none => rfl
      | some r => exact absurd ⟨r, (pLit_spec hl).symm⟩ (h rfl)
    rw [show dnText false = [] from rfl, List.nil_append, this]

theorem dn_prefix_rule {r s : Str} (hr : RuleName r) (h : ¬ ['d', 'n'] <+: r) : ¬ [':', 'd', 'n'] <+: ':' :: (r ++ ':' :: s) := by
  rintro ⟨t, ht⟩
  simp only [List.cons_append, List.nil_append, List.cons.injEq, true_and] at ht
  have hrn : r ≠ [] := by
    rcases hr with hr | ⟨c, t, rfl, _⟩
    · cases hr with
      | single ds hne _ => exact hne
      | dot ds r hne _ _ => simp
    · simp
  match r, hrn, ht with
  | [c], _, ht => simp at ht
  | c :: d :: r, _, ht =>
    simp only [List.cons_append, List.cons.injEq] at ht
    obtain ⟨rfl, rfl, _⟩ := ht
    exact h ⟨r, rfl⟩

theorem pExtAttr_spec {a : Str} (ha : AttrName a) {v t : Str} (h : Enc v t) (hv : v ≠ []) (ro : Option Str) (d : Bool)
    (hr : ∀ x ∈ ro, RuleName x ∧ (d = false → ¬ ['d', 'n'] <+: x)) (r : Str) :
    pExtAttr (a ++ (dnText d ++ ((match ro with
        | some r => ':' :: r
        | none => []) ++ ':' :: '=' :: (t ++ ')' :: r)))) = some (.extensible ro (some a) v (some d), ')' :: r) := by
  have key : ∀ s : Str, (∃ s', s = ':' :: s') → (d = false → ¬ [':', 'd', 'n'] <+: s) →
      pOpt pColonRule s = (ro, ':' :: '=' :: (t ++ ')' :: r)) →
      pExtAttr (a ++ (dnText d ++ s)) = some (.extensible ro (some a) v (some d), ')' :: r) := by
    rintro s ⟨s', rfl⟩ hs1 hs2
    have hat : pAttr (a ++ (dnText d ++ ':' :: s')) = some (a, dnText d ++ ':' :: s') := by
      cases d with
      | true => exact pAttr_name ha (c := ':') (by decide) _
      | false => exact pAttr_name ha (c := ':') (by decide) _
    unfold pExtAttr
    simp only [hat, Option.bind_eq_bind, Option.bind_some, pDnFlag_spec d hs1, hs2]
    rw [pLit_two]
    simp only [Option.bind_some, pValue_enc h hv (ends_close r)]
    rfl
  cases ro with
  | none =>
    apply key
    · exact ⟨_, rfl⟩
    · intro _; rintro ⟨t, ht⟩; simp at ht
    · unfold pOpt; simp only [List.nil_append]; rw [pColonRule_eq]
  | some x =>
    have hx := hr x rfl
    apply key
    · exact ⟨_, rfl⟩
    · intro hd; exact dn_prefix_rule hx.1 (hx.2 hd)
    · unfold pOpt
      rw [List.cons_append, pColonRule_spec hx.1]

theorem pExtNoAttr_spec {v t : Str} (h : Enc v t) (hv : v ≠ []) (x : Str) (d : Bool)
    (hr : RuleName x ∧ (d = false → ¬ ['d', 'n'] <+: x)) (r : Str) :
    pExtNoAttr (dnText d ++ ':' :: (x ++ ':' :: '=' :: (t ++ ')' :: r))) =
      some (.extensible (some x) none v (some d), ')' :: r) := by
  unfold pExtNoAttr
  rw [pDnFlag_spec d (fun hd => dn_prefix_rule hr.1 (hr.2 hd))]
  simp only [pColonRule_spec hr.1, Option.bind_eq_bind, Option.bind_some]
  rw [pLit_two]
  simp only [Option.bind_some, pValue_enc h hv (ends_close r)]
  rfl

/-! ### Whole filters -/

theorem pItem_extensible {a : Str} (ha : AttrName a) {s : Str} {x : Filter × Str} (hs : ∃ s', s = a ++ ':' :: s')
    (h : pExtAttr s = some x) : pItem s = some x := by
  obtain ⟨s', rfl⟩ := hs
  unfold pItem pExtensible
  rw [pSimple_of_attr ha (by decide) _ (by decide), pPresent_of_attr ha (by decide) _ (by decide),
    pSubstring_of_attr ha (by decide) _ (by decide), h]
  rfl

theorem pItem_noattr {s : Str} {x : Filter × Str} (hs : ∃ s', s = ':' :: s') (h : pExtNoAttr s = some x) :
    pItem s = some x := by
  obtain ⟨s', rfl⟩ := hs
  have hn := pAttr_none (c := ':') (by decide) s'
  unfold pItem pExtensible pSimple pPresent pSubstring pExtAttr
  rw [hn, h]
  rfl

/-- Items do not begin like the boolean operators. -/
def ItemStart (s : Str) : Prop := ∃ c r, s = c :: r ∧ (isLetter c = true ∨ c = ':')

theorem pComp_item {n : Nat} {s : Str} (h : ItemStart s) : pComp (n + 1) s = pItem s := by
  obtain ⟨c, r, rfl, hc⟩ := h
  have h1 : '&' ≠ c := by rintro rfl; revert hc; decide
  have h2 : '|' ≠ c := by rintro rfl; revert hc; decide
  have h3 : '!' ≠ c := by rintro rfl; revert hc; decide
  have e1 : pAnd n (c :: r) = none := by cases n with
    | zero => rfl
    | succ n => rw [pAnd, pLit_ne h1]
  have e2 : pOr n (c :: r) = none := by cases n with
    | zero => rfl
    | succ n => rw [pOr, pLit_ne h2]
  have e3 : pNot n (c :: r) = none := by cases n with
    | zero => rfl
    | succ n => rw [pNot, pLit_ne h3]
  rw [pComp, e1, e2, e3]

theorem pFilter_item {n : Nat} {s r : Str} {f : Filter} (hs : ItemStart s) (h : pItem s = some (f, ')' :: r)) :
    pFilter (n + 2) ('(' :: s) = some (f, r) := by
  rw [pFilter]
  simp only [pLit_one, pComp_item hs, h]

theorem attr_itemStart {a : Str} (ha : AttrName a) (s : Str) : ItemStart (a ++ s) := by
  obtain ⟨c, t, rfl, hc, _⟩ := (attrName_iff _).mp ha
  exact ⟨c, t ++ s, rfl, .inl hc⟩

mutual
/-- A recursion depth that suffices for a filter. -/
def need : Filter → Nat
  | .and fs => 3 + needs fs
  | .or fs => 3 + needs fs
  | .not f => 3 + need f
  | _ => 2
def needs : List Filter → Nat
  | [] => 0
  | f :: fs => 1 + max (need f) (needs fs)
end

theorem pFilter_open (n : Nat) (c : Char) (s : Str) (hc : c ≠ '(') : pFilter n (c :: s) = none := by
  cases n with
  | zero => rfl
  | succ n => rw [pFilter, pLit_ne (Ne.symm hc)]

theorem substringsLoop_anys (esc : Str → Str) (as : List Str) (f i : Option Str) (acc : List Str) :
    substringsLoop esc (as.map Piece.any ++ (f.map Piece.final).toList) i acc none =
      .ok (joinWith ['*'] ([i.getD []] ++ (acc ++ as.map esc) ++ [(f.map esc).getD []])) := by
  induction as generalizing acc with
  | nil =>
    cases f with
    | none => simp [substringsLoop]
    | some f => simp [substringsLoop]
  | cons a as ih =>
    simp only [List.map_cons, List.cons_append, substringsLoop, Option.isSome_none, Bool.false_eq_true, ↓reduceIte]
    rw [ih]; simp

theorem substringsLoop_pieces (esc : Str → Str) (i : Option Str) (as : List Str) (f : Option Str) :
    substringsLoop esc (pieces i as f) none [] none =
      .ok (joinWith ['*'] ([(i.map esc).getD []] ++ as.map esc ++ [(f.map esc).getD []])) := by
  unfold pieces
  cases i with
  | none => simpa using substringsLoop_anys esc as f none []
  | some i =>
    have := substringsLoop_anys esc as f (some (esc i)) []
    simp only [Option.map_some, Option.toList_some, List.cons_append, List.nil_append,
      substringsLoop, Option.isSome_none, List.isEmpty_nil, Bool.not_true, Bool.or_false, Bool.false_eq_true, ↓reduceIte]
    rw [this]; simp

theorem joinWith_starred (x : Str) (ts : List Str) (z : Str) :
    joinWith ['*'] ([x] ++ ts ++ [z]) = x ++ '*' :: (starred ts ++ z) := by
  induction ts generalizing x with
  | nil => simp [joinWith, starred]
  | cons t ts ih =>
    have : joinWith ['*'] ([x] ++ (t :: ts) ++ [z]) = x ++ ['*'] ++ joinWith ['*'] ([t] ++ ts ++ [z]) := by
      simp only [List.cons_append, List.nil_append]
      rw [joinWith]
      intro e; cases e
    rw [this, ih]
    simp [starred]

/-- The escaper and the values it serves: what it prints is read back, and is free of tabs. -/
structure Escaper (Ok : Str → Prop) (esc : Str → Str) : Prop where
  enc : ∀ v, Ok v → Enc v (esc v)
  noTab : ∀ v, Ok v → '\t' ∉ esc v
  nonempty : ∀ v, Ok v → v ≠ []

theorem opt_enc {Ok : Str → Prop} {esc : Str → Str} (h : Escaper Ok esc) {v : Option Str} (hv : ∀ x ∈ v, Ok x) :
    Enc (v.getD []) ((v.map esc).getD []) := by
  cases v with
  | none => exact .nil
  | some v => exact h.enc v (hv v rfl)

mutual
theorem print_parse {Ok : Str → Prop} {esc : Str → Str} (he : Escaper Ok esc) (f : Filter) (h : Valid Ok f) :
    ∃ t, f.asText esc = .ok t ∧ 2 * t.length ≥ need f + 1 ∧
      ∀ n r, need f ≤ n → pFilter n (t ++ r) = some (f, r) := by
  have item : ∀ {f : Filter} {t : Str}, f.asText esc = .ok ('(' :: (t ++ [')'])) → need f = 2 →
      (∀ r, ItemStart (t ++ ')' :: r)) → (∀ r, pItem (t ++ ')' :: r) = some (f, ')' :: r)) →
      ∃ t, f.asText esc = .ok t ∧ 2 * t.length ≥ need f + 1 ∧
        ∀ n r, need f ≤ n → pFilter n (t ++ r) = some (f, r) := by
    intro f t h1 h2 h3 h4
    refine ⟨_, h1, by simp; omega, ?_⟩
    intro n r hn
    obtain ⟨m, rfl⟩ : ∃ m, n = m + 2 := ⟨n - 2, by omega⟩
    have := pFilter_item (n := m) (h3 r) (h4 r)
    simpa using this
  cases f with
  | and fs =>
    cases h with
    | and _ hne hfs =>
      obtain ⟨t, ht, hl, hp⟩ := prints_parse he fs hfs
      refine ⟨'(' :: '&' :: (t ++ [')']), by rw [Filter.asText, ht]; rfl, by simp [need]; omega, ?_⟩
      intro n r hn
      rw [need] at hn
      obtain ⟨m, rfl⟩ : ∃ m, n = m + 3 := ⟨n - 3, by omega⟩
      have hp := hp m (')' :: r) (by omega) (fun k => pFilter_open k _ _ (by decide))
      have e : '(' :: '&' :: (t ++ [')']) ++ r = '(' :: '&' :: (t ++ ')' :: r) := by simp
      rw [e, pFilter]
      simp only [pLit_one, pComp, pAnd, hp]
  | or fs =>
    cases h with
    | or _ hne hfs =>
      obtain ⟨t, ht, hl, hp⟩ := prints_parse he fs hfs
      refine ⟨'(' :: '|' :: (t ++ [')']), by rw [Filter.asText, ht]; rfl, by simp [need]; omega, ?_⟩
      intro n r hn
      rw [need] at hn
      obtain ⟨m, rfl⟩ : ∃ m, n = m + 3 := ⟨n - 3, by omega⟩
      have hp := hp m (')' :: r) (by omega) (fun k => pFilter_open k _ _ (by decide))
      have e : '(' :: '|' :: (t ++ [')']) ++ r = '(' :: '|' :: (t ++ ')' :: r) := by simp
      rw [e, pFilter]
      simp only [pLit_one, pComp, pAnd, pOr, hp, pLit_ne (c := '&') (d := '|') (by decide)]
  | not f =>
    cases h with
    | not _ hf =>
      obtain ⟨t, ht, hl, hp⟩ := print_parse he f hf
      refine ⟨'(' :: '!' :: (t ++ [')']), by rw [Filter.asText, ht]; rfl, by simp [need]; omega, ?_⟩
      intro n r hn
      rw [need] at hn
      obtain ⟨m, rfl⟩ : ∃ m, n = m + 3 := ⟨n - 3, by omega⟩
      have hp := hp m (')' :: r) (by omega)
      have e : '(' :: '!' :: (t ++ [')']) ++ r = '(' :: '!' :: (t ++ ')' :: r) := by simp
      rw [e, pFilter]
      simp only [pLit_one, pComp, pAnd, pOr, pNot, hp, pLit_ne (c := '&') (d := '!') (by decide),
        pLit_ne (c := '|') (d := '!') (by decide)]
  | equality a v =>
    cases h with
    | equality _ _ ha hv =>
      refine item (t := a ++ '=' :: esc v) (by simp [Filter.asText]) rfl ?_ ?_
      · intro r; rw [List.append_assoc]; exact attr_itemStart ha _
      · intro r
        have := pItem_equality ha (he.enc v hv) (he.nonempty v hv) r
        simpa using this
  | greaterOrEqual a v =>
    cases h with
    | greaterOrEqual _ _ ha hv =>
      refine item (t := a ++ '>' :: '=' :: esc v) (by simp [Filter.asText]) rfl ?_ ?_
      · intro r; rw [List.append_assoc]; exact attr_itemStart ha _
      · intro r
        have := pItem_other ha (he.enc v hv) (he.nonempty v hv) r (c := '>') (mk := .greaterOrEqual) (by decide)
          (by decide) (by decide) (fun s => rfl)
        simpa using this
  | lessOrEqual a v =>
    cases h with
    | lessOrEqual _ _ ha hv =>
      refine item (t := a ++ '<' :: '=' :: esc v) (by simp [Filter.asText]) rfl ?_ ?_
      · intro r; rw [List.append_assoc]; exact attr_itemStart ha _
      · intro r
        have := pItem_other ha (he.enc v hv) (he.nonempty v hv) r (c := '<') (mk := .lessOrEqual) (by decide)
          (by decide) (by decide) (fun s => rfl)
        simpa using this
  | approx a v =>
    cases h with
    | approx _ _ ha hv =>
      refine item (t := a ++ '~' :: '=' :: esc v) (by simp [Filter.asText]) rfl ?_ ?_
      · intro r; rw [List.append_assoc]; exact attr_itemStart ha _
      · intro r
        have := pItem_other ha (he.enc v hv) (he.nonempty v hv) r (c := '~') (mk := .approx) (by decide)
          (by decide) (by decide) (fun s => rfl)
        simpa using this
  | present a =>
    cases h with
    | present _ ha =>
      refine item (t := a ++ ['=', '*']) (by simp [Filter.asText]) rfl ?_ ?_
      · intro r; rw [List.append_assoc]; exact attr_itemStart ha _
      · intro r
        have := pItem_present ha r
        simpa using this
  | substrings a ps =>
    cases h with
    | substrings _ i as f ha hne hi has hf =>
      have hpieces := substringsLoop_pieces esc i as f
      rw [joinWith_starred] at hpieces
      refine item (t := a ++ '=' :: ((i.map esc).getD [] ++ '*' :: (starred (as.map esc) ++ (f.map esc).getD [])))
        (by rw [Filter.asText, hpieces]; simp [bind, Except.bind, pure, Except.pure]) rfl ?_ ?_
      · intro r; rw [List.append_assoc]; exact attr_itemStart ha _
      · intro r
        have hm : (as.map fun v => (v, esc v)).map Prod.fst = as := by simp [Function.comp_def]
        have hm' : (as.map fun v => (v, esc v)).map Prod.snd = as.map esc := by simp [Function.comp_def]
        have := pItem_substrings ha (vts := as.map fun v => (v, esc v)) (opt_enc he hi)
          (fun x hx => he.nonempty x (hi x hx)) (opt_enc he hf) (fun x hx => he.nonempty x (hf x hx))
          (by
            intro p hp
            obtain ⟨v, hv, rfl⟩ := List.mem_map.mp hp
            exact ⟨he.enc v (has v hv), he.nonempty v (has v hv)⟩)
          (by rw [hm]; exact hne) r
        rw [hm, hm'] at this
        simpa using this
  | extensible ro t v d =>
    cases h with
    | extType a _ d ha hv =>
      have := pExtAttr_spec ha (he.enc v hv) (he.nonempty v hv) none d (by simp)
      refine item (t := a ++ (dnText d ++ ':' :: '=' :: esc v)) (by cases d <;> simp [Filter.asText, dnText]) rfl ?_ ?_
      · intro r; rw [List.append_assoc]; exact attr_itemStart ha _
      · intro r
        apply pItem_extensible ha
        · cases d
          · exact ⟨'=' :: (esc v ++ ')' :: r), by simp [dnText]⟩
          · exact ⟨'d' :: 'n' :: ':' :: '=' :: (esc v ++ ')' :: r), by simp [dnText]⟩
        · simpa using this r
    | ext x _ t d hx ht hv hd =>
      cases t with
      | some a =>
        have ha := ht a rfl
        have := pExtAttr_spec ha (he.enc v hv) (he.nonempty v hv) (some x) d (by simpa using ⟨hx, hd⟩)
        refine item (t := a ++ (dnText d ++ (':' :: x ++ ':' :: '=' :: esc v)))
          (by cases d <;> simp [Filter.asText, dnText]) rfl ?_ ?_
        · intro r; rw [List.append_assoc]; exact attr_itemStart ha _
        · intro r
          apply pItem_extensible ha
          · cases d
            · exact ⟨x ++ ':' :: '=' :: (esc v ++ ')' :: r), by simp [dnText]⟩
            · exact ⟨'d' :: 'n' :: ':' :: (x ++ ':' :: '=' :: (esc v ++ ')' :: r)), by simp [dnText]⟩
          · simpa using this r
      | none =>
        have := pExtNoAttr_spec (he.enc v hv) (he.nonempty v hv) x d ⟨hx, hd⟩
        refine item (t := dnText d ++ (':' :: x ++ ':' :: '=' :: esc v))
          (by cases d <;> simp [Filter.asText, dnText]) rfl ?_ ?_
        · intro r; cases d <;> exact ⟨_, _, rfl, .inr rfl⟩
        · intro r
          apply pItem_noattr
          · cases d <;> exact ⟨_, rfl⟩
          · simpa using this r
theorem prints_parse {Ok : Str → Prop} {esc : Str → Str} (he : Escaper Ok esc) (fs : List Filter)
    (h : ∀ f ∈ fs, Valid Ok f) :
    ∃ t, Filter.asTexts esc fs = .ok t ∧ 2 * t.length ≥ needs fs ∧
      ∀ n r, needs fs ≤ n → (∀ k, pFilter k r = none) → pFilters n (t ++ r) = (fs, r) := by
  cases fs with
  | nil =>
    refine ⟨[], rfl, by simp [needs], ?_⟩
    intro n r _ hr
    cases n with
    | zero => rfl
    | succ n => rw [List.nil_append, pFilters, hr]
  | cons f fs =>
    obtain ⟨t, ht, hl, hp⟩ := print_parse he f (h f (by simp))
    obtain ⟨ts, hts, hls, hps⟩ := prints_parse he fs (fun g hg => h g (by simp [hg]))
    refine ⟨t ++ ts, by rw [Filter.asTexts, ht, hts]; rfl, by simp [needs]; omega, ?_⟩
    intro n r hn hr
    rw [needs] at hn
    obtain ⟨m, rfl⟩ : ∃ m, n = m + 1 := ⟨n - 1, by omega⟩
    rw [pFilters, List.append_assoc, hp m _ (by omega)]
    simp only
    rw [hps m r (by omega) hr]
end

/-! ### The recursion bound is never reached -/

theorem takeDrop_length (p : Char → Bool) (s : Str) : (s.dropWhile p).length ≤ s.length := by
  induction s with
  | nil => simp
  | cons c s ih =>
    rw [List.dropWhile_cons]
    split
    · simp; omega
    · simp

theorem pLit_length {l s r : Str} (h : pLit l s = some r) : r.length + l.length = s.length := by
  have := pLit_spec h; rw [this]; simp; omega

theorem pAttr_length {s r a : Str} (h : pAttr s = some (a, r)) : r.length < s.length := by
  cases s with
  | nil => cases h
  | cons c s =>
    rw [pAttr] at h
    split at h
    · cases h; have := takeDrop_length isAttrChar s; simp; omega
    · cases h

theorem pChars_length (s : Str) : (pChars s).2.length ≤ s.length := by
  fun_induction pChars s with
  | case1 => simp
  | case2 h l s a b h1 h2 ih => simp; omega
  | case3 => simp
  | case4 => simp
  | case5 c s _ _ ih => simp; omega

theorem pValue_length {s r v : Str} (h : pValue s = some (v, r)) : r.length ≤ s.length := by
  have := pChars_length s
  unfold pValue at h
  split at h
  · cases h
  · rename_i e; cases h; rw [e] at this; exact this

theorem pOpt_length {α : Type} {p : Parser α} (hp : ∀ s a r, p s = some (a, r) → r.length ≤ s.length) (s : Str) :
    (pOpt p s).2.length ≤ s.length := by
  unfold pOpt
  split
  · rename_i e; exact hp _ _ _ e
  · simp

theorem pAnyValues_length (n : Nat) (s : Str) : (pAnyValues n s).2.length ≤ s.length := by
  induction n generalizing s with
  | zero => simp [pAnyValues]
  | succ n ih =>
    rw [pAnyValues]
    split
    · rename_i v r e
      have h1 : r.length ≤ s.length := by
        unfold pAnyValue at e
        simp only [Option.bind_eq_bind, Option.bind_eq_some_iff, Option.pure_def, Option.some.injEq, Prod.mk.injEq] at e
        obtain ⟨⟨v', r'⟩, e1, r'', e2, _, rfl⟩ := e
        have := pValue_length e1
        have := pLit_length e2
        simp at *; omega
      have := ih r
      simp; omega
    · simp

theorem pDigits_length {s r v : Str} (h : pDigits s = some (v, r)) : r.length ≤ s.length := by
  unfold pDigits at h
  split at h
  · cases h
  · cases h; exact takeDrop_length _ _

theorem pDotted_length (n : Nat) (s : Str) : (pDotted n s).2.length ≤ s.length := by
  induction n generalizing s with
  | zero => simp [pDotted]
  | succ n ih =>
    rw [pDotted.eq_def]
    simp only
    split
    · split
      · rename_i r0 ds r e
        have := pDigits_length e
        have := ih r
        simp; omega
      · simp
    · simp

theorem pMatchingRule_length {s r v : Str} (h : pMatchingRule s = some (v, r)) : r.length ≤ s.length := by
  unfold pMatchingRule at h
  split at h
  · rename_i x e
    cases h
    unfold pNumericOid at e
    simp only [Option.bind_eq_bind, Option.bind_eq_some_iff, Option.pure_def, Option.some.injEq, Prod.mk.injEq] at e
    obtain ⟨⟨v', r'⟩, e1, _, rfl⟩ := e
    have := pDigits_length e1
    have := pDotted_length r'.length r'
    simp at *; omega
  · exact Nat.le_of_lt (pAttr_length h)

theorem pDnFlag_length (s : Str) : (pDnFlag s).2.length ≤ s.length := by
  unfold pDnFlag
  split
  · rename_i e; have := pLit_length e; simp at *; omega
  · simp

theorem pColonRule_length {s r v : Str} (h : pColonRule s = some (v, r)) : r.length ≤ s.length := by
  unfold pColonRule at h
  simp only [Option.bind_eq_bind, Option.bind_eq_some_iff] at h
  obtain ⟨s', e1, e2⟩ := h
  have := pLit_length e1
  have := pMatchingRule_length e2
  simp at *; omega

theorem longer_mem {α : Type} {a b : Option (α × Str)} {x : α × Str} (h : longer a b = some x) : a = some x ∨ b = some x := by
  cases a with
  | none => exact .inr h
  | some a =>
    cases b with
    | none => exact .inl h
    | some b =>
      rw [longer] at h
      split at h
      · exact .inr h
      · exact .inl h

theorem pItem_length {s r : Str} {f : Filter} (h : pItem s = some (f, r)) : r.length ≤ s.length := by
  unfold pItem at h
  rcases longer_mem h with h | h
  · rcases longer_mem h with h | h
    · rcases longer_mem h with h | h
      · unfold pSimple at h
        simp only [Option.bind_eq_bind, Option.bind_eq_some_iff, Option.pure_def, Option.some.injEq, Prod.mk.injEq] at h
        obtain ⟨⟨a, s1⟩, e1, ⟨mk, s2⟩, e2, ⟨v, s3⟩, e3, _, rfl⟩ := h
        have h1 := pAttr_length e1
        have h3 := pValue_length e3
        have h2 : s2.length ≤ s1.length := by
          unfold pFilterType at e2
          repeat' split at e2
          all_goals first
            | (cases e2; rename_i e; have := pLit_length e; simp at this; omega)
            | cases e2
        simp at *; omega
      · unfold pPresent at h
        simp only [Option.bind_eq_bind, Option.bind_eq_some_iff, Option.pure_def, Option.some.injEq, Prod.mk.injEq] at h
        obtain ⟨⟨a, s1⟩, e1, s2, e2, _, rfl⟩ := h
        have h1 := pAttr_length e1
        have h2 := pLit_length e2
        simp at *; omega
    · unfold pSubstring at h
      simp only [Option.bind_eq_bind, Option.bind_eq_some_iff, Option.pure_def, Option.some.injEq, Prod.mk.injEq] at h
      obtain ⟨⟨a, s1⟩, e1, s2, e2, s3, e3, _, rfl⟩ := h
      have h1 := pAttr_length e1
      have h2 := pLit_length e2
      have h3 := pLit_length e3
      have hp := pOpt_length (p := pValue) (fun s a r e => pValue_length e)
      have h4 := hp s2
      have h5 := pAnyValues_length s3.length s3
      have h6 := hp (pAnyValues s3.length s3).2
      simp at *; omega
  · unfold pExtensible at h
    split at h
    · rename_i e
      cases h
      unfold pExtAttr at e
      simp only [Option.bind_eq_bind, Option.bind_eq_some_iff, Option.pure_def, Option.some.injEq, Prod.mk.injEq] at e
      obtain ⟨⟨a, s1⟩, e1, s2, e2, ⟨v, s3⟩, e3, _, rfl⟩ := e
      have h1 := pAttr_length e1
      have h2 := pDnFlag_length s1
      have h3 := pOpt_length (p := pColonRule) (fun s a r e => pColonRule_length e) (pDnFlag s1).2
      have h4 := pLit_length e2
      have h5 := pValue_length e3
      simp at *; omega
    · unfold pExtNoAttr at h
      simp only [Option.bind_eq_bind, Option.bind_eq_some_iff, Option.pure_def, Option.some.injEq, Prod.mk.injEq] at h
      obtain ⟨⟨a, s1⟩, e1, s2, e2, ⟨v, s3⟩, e3, _, rfl⟩ := h
      have h1 := pColonRule_length e1
      have h2 := pDnFlag_length s
      have h4 := pLit_length e2
      have h5 := pValue_length e3
      simp at *; omega

/-- Lengths after each parser, for one recursion bound. -/
structure Shrinks (n : Nat) : Prop where
  filter : ∀ s f r, pFilter n s = some (f, r) → r.length < s.length
  comp : ∀ s f r, pComp n s = some (f, r) → r.length ≤ s.length
  and : ∀ s f r, pAnd n s = some (f, r) → r.length ≤ s.length
  or : ∀ s f r, pOr n s = some (f, r) → r.length ≤ s.length
  not : ∀ s f r, pNot n s = some (f, r) → r.length ≤ s.length
  filters : ∀ s, (pFilters n s).2.length ≤ s.length

theorem shrinks (n : Nat) : Shrinks n := by
  induction n with
  | zero =>
    exact ⟨nofun, nofun, nofun, nofun, nofun, by intro s; simp [pFilters]⟩
  | succ n ih =>
    constructor
    · intro s f r h
      rw [pFilter] at h
      repeat' split at h
      all_goals first | (cases h; done) | skip
      rename_i e1 _ _ _ e2 _ _ e3
      cases h
      have := pLit_length e1
      have := ih.comp _ _ _ e2
      have := pLit_length e3
      simp at *; omega
    · intro s f r h
      rw [pComp] at h
      split at h
      · rename_i e; cases h; exact ih.and _ _ _ e
      · split at h
        · rename_i e; cases h; exact ih.or _ _ _ e
        · split at h
          · rename_i e; cases h; exact ih.not _ _ _ e
          · exact pItem_length h
    · intro s f r h
      rw [pAnd] at h
      split at h
      · cases h
      · rename_i s' e
        have := pLit_length e
        have h2 := ih.filters s'
        split at h
        · cases h
        · rename_i e2; cases h; rw [e2] at h2; simp at *; omega
    · intro s f r h
      rw [pOr] at h
      split at h
      · cases h
      · rename_i s' e
        have := pLit_length e
        have h2 := ih.filters s'
        split at h
        · cases h
        · rename_i e2; cases h; rw [e2] at h2; simp at *; omega
    · intro s f r h
      rw [pNot] at h
      split at h
      · cases h
      · rename_i s' e
        have := pLit_length e
        split at h
        · cases h
        · rename_i e2; cases h; have := ih.filter _ _ _ e2; simp at *; omega
    · intro s
      rw [pFilters]
      split
      · simp
      · rename_i f r e
        have := ih.filter _ _ _ e
        have := ih.filters r
        simp; omega

/-- Beyond these bounds the result does not depend on the bound. -/
structure Stable (n : Nat) : Prop where
  filter : ∀ s, 4 * s.length + 1 ≤ n → pFilter (n + 1) s = pFilter n s
  comp : ∀ s, 4 * s.length + 4 ≤ n → pComp (n + 1) s = pComp n s
  and : ∀ s, 4 * s.length + 3 ≤ n → pAnd (n + 1) s = pAnd n s
  or : ∀ s, 4 * s.length + 3 ≤ n → pOr (n + 1) s = pOr n s
  not : ∀ s, 4 * s.length + 3 ≤ n → pNot (n + 1) s = pNot n s
  filters : ∀ s, 4 * s.length + 2 ≤ n → pFilters (n + 1) s = pFilters n s

theorem stable (n : Nat) : Stable n := by
  induction n with
  | zero =>
    exact ⟨by intro s h; omega, by intro s h; omega, by intro s h; omega, by intro s h; omega, by intro s h; omega,
      by intro s h; omega⟩
  | succ n ih =>
    constructor
    · intro s h
      rw [pFilter, pFilter.eq_def (n + 1)]
      simp only
      cases e : pLit ['('] s with
      | none => rfl
      | some s' =>
        have := pLit_length e
        simp only
        rw [ih.comp s' (by simp at this; omega)]
    · intro s h
      rw [pComp, pComp.eq_def (n + 1)]
      simp only
      rw [ih.and s (by omega), ih.or s (by omega), ih.not s (by omega)]
    · intro s h
      rw [pAnd, pAnd.eq_def (n + 1)]
      simp only
      cases e : pLit ['&'] s with
      | none => rfl
      | some s' =>
        have := pLit_length e
        simp only
        rw [ih.filters s' (by simp at this; omega)]
    · intro s h
      rw [pOr, pOr.eq_def (n + 1)]
      simp only
      cases e : pLit ['|'] s with
      | none => rfl
      | some s' =>
        have := pLit_length e
        simp only
        rw [ih.filters s' (by simp at this; omega)]
    · intro s h
      rw [pNot, pNot.eq_def (n + 1)]
      simp only
      cases e : pLit ['!'] s with
      | none => rfl
      | some s' =>
        have := pLit_length e
        simp only
        rw [ih.filter s' (by simp at this; omega)]
    · intro s h
      rw [pFilters, pFilters.eq_def (n + 1)]
      simp only
      rw [ih.filter s (by omega)]
      cases e : pFilter n s with
      | none => rfl
      | some p =>
        obtain ⟨f, r⟩ := p
        have := (shrinks n).filter s f r e
        simp only
        rw [ih.filters r (by omega)]

/-- The bound used by `parseFilter` is immaterial: every larger one gives the same result. -/
theorem pFilter_bound (s : Str) (n : Nat) (h : bound s ≤ n) : pFilter n s = pFilter (bound s) s := by
  obtain ⟨k, rfl⟩ : ∃ k, n = bound s + k := ⟨n - bound s, by omega⟩
  induction k with
  | zero => rfl
  | succ k ih =>
    rw [← ih (by omega)]
    exact (stable (bound s + k)).filter s (by unfold bound; omega)

/-! ### Tabs -/

theorem expandTabs_append (k : Nat) (s t : Str) : ∃ k', expandTabs k (s ++ t) = expandTabs k s ++ expandTabs k' t := by
  fun_induction expandTabs k s with
  | case1 k => exact ⟨k, rfl⟩
  | case2 k s ih =>
    obtain ⟨k', h⟩ := ih
    exact ⟨k', by rw [List.cons_append, expandTabs, h, List.append_assoc]⟩
  | case3 k c s h1 h2 ih =>
    obtain ⟨k', h⟩ := ih
    refine ⟨k', ?_⟩
    rw [List.cons_append, expandTabs.eq_def]
    split
    · rename_i e; cases e
    · rename_i e; injection e with e1 e2; exact absurd e1 (fun e => h1 e)
    · rename_i e; injection e with e1 e2; subst e1 e2; rw [if_pos h2, h]; rfl
  | case4 k c s h1 h2 ih =>
    obtain ⟨k', h⟩ := ih
    refine ⟨k', ?_⟩
    rw [List.cons_append, expandTabs.eq_def]
    split
    · rename_i e; cases e
    · rename_i e; injection e with e1 e2; exact absurd e1 (fun e => h1 e)
    · rename_i e; injection e with e1 e2; subst e1 e2; rw [if_neg h2, h]; rfl

theorem expandTabs_cons {c : Char} (hc : c ≠ '\t') (k : Nat) (s : Str) :
    ∃ k', expandTabs k (c :: s) = c :: expandTabs k' s := by
  rw [expandTabs.eq_def]
  split
  · rename_i e; cases e
  · rename_i e; injection e with e1 e2; exact absurd e1 hc
  · rename_i e; injection e with e1 e2; subst e1 e2; split <;> exact ⟨_, rfl⟩

theorem expandTabs_id {s : Str} (h : '\t' ∉ s) (k : Nat) : expandTabs k s = s := by
  induction s generalizing k with
  | nil => rfl
  | cons c s ih =>
    obtain ⟨k', e⟩ := expandTabs_cons (c := c) (by rintro rfl; exact h (by simp)) k s
    rw [e, ih (fun hm => h (by simp [hm]))]

theorem attr_noTab {a : Str} (ha : AttrName a) : '\t' ∉ a := by
  obtain ⟨c, t, rfl, hc, ht⟩ := ha
  intro hm
  rcases List.mem_cons.mp hm with rfl | hm
  · revert hc; decide
  · have := ht _ hm; revert this; decide

theorem numeric_noTab {a : Str} (h : NumericOid a) : '\t' ∉ a := by
  induction h with
  | single ds _ hd => intro hm; have := hd _ hm; revert this; decide
  | dot ds r _ hd _ ih =>
    intro hm
    rcases List.mem_append.mp hm with hm | hm
    · have := hd _ hm; revert this; decide
    · rcases List.mem_cons.mp hm with hm | hm
      · revert hm; decide
      · exact ih hm

theorem rule_noTab {a : Str} (h : RuleName a) : '\t' ∉ a := by
  rcases h with h | h
  · exact numeric_noTab h
  · exact attr_noTab h

theorem opt_noTab {Ok : Str → Prop} {esc : Str → Str} (h : Escaper Ok esc) {v : Option Str} (hv : ∀ x ∈ v, Ok x) :
    '\t' ∉ (v.map esc).getD [] := by
  cases v with
  | none => simp
  | some v => exact h.noTab v (hv v rfl)

mutual
theorem text_noTab {Ok : Str → Prop} {esc : Str → Str} (he : Escaper Ok esc) (f : Filter) (h : Valid Ok f) (t : Str)
    (ht : f.asText esc = .ok t) : '\t' ∉ t := by
  cases f with
  | and fs =>
    cases h with
    | and _ _ hfs =>
      rw [Filter.asText] at ht
      cases hts : Filter.asTexts esc fs with
      | error e => rw [hts] at ht; cases ht
      | ok ts =>
        rw [hts] at ht; cases ht
        have := texts_noTab he fs hfs ts hts
        simp [this]
  | or fs =>
    cases h with
    | or _ _ hfs =>
      rw [Filter.asText] at ht
      cases hts : Filter.asTexts esc fs with
      | error e => rw [hts] at ht; cases ht
      | ok ts =>
        rw [hts] at ht; cases ht
        have := texts_noTab he fs hfs ts hts
        simp [this]
  | not f =>
    cases h with
    | not _ hf =>
      rw [Filter.asText] at ht
      cases hts : Filter.asText esc f with
      | error e => rw [hts] at ht; cases ht
      | ok ts =>
        rw [hts] at ht; cases ht
        have := text_noTab he f hf ts hts
        simp [this]
  | equality a v =>
    cases h with
    | equality _ _ ha hv => rw [Filter.asText] at ht; cases ht; simp [attr_noTab ha, he.noTab v hv]
  | greaterOrEqual a v =>
    cases h with
    | greaterOrEqual _ _ ha hv => rw [Filter.asText] at ht; cases ht; simp [attr_noTab ha, he.noTab v hv]
  | lessOrEqual a v =>
    cases h with
    | lessOrEqual _ _ ha hv => rw [Filter.asText] at ht; cases ht; simp [attr_noTab ha, he.noTab v hv]
  | approx a v =>
    cases h with
    | approx _ _ ha hv => rw [Filter.asText] at ht; cases ht; simp [attr_noTab ha, he.noTab v hv]
  | present a =>
    cases h with
    | present _ ha => rw [Filter.asText] at ht; cases ht; simp [attr_noTab ha]
  | substrings a ps =>
    cases h with
    | substrings _ i as f ha _ hi has hf =>
      rw [Filter.asText, substringsLoop_pieces, joinWith_starred] at ht
      cases ht
      have h1 := opt_noTab he hi
      have h2 := opt_noTab he hf
      have h3 : '\t' ∉ starred (as.map esc) := by
        unfold starred
        intro hm
        obtain ⟨t, ht, hm⟩ := List.mem_flatMap.mp hm
        obtain ⟨v, hv, rfl⟩ := List.mem_map.mp ht
        have := he.noTab v (has v hv)
        simp [this] at hm
      simp [attr_noTab ha, h1, h2, h3]
  | extensible ro t v d =>
    cases h with
    | extType a _ d ha hv =>
      rw [Filter.asText] at ht; cases ht
      cases d <;> simp [attr_noTab ha, he.noTab v hv]
    | ext x _ t d hx hta hv _ =>
      rw [Filter.asText] at ht; cases ht
      cases t with
      | none => cases d <;> simp [rule_noTab hx, he.noTab v hv]
      | some a => cases d <;> simp [rule_noTab hx, attr_noTab (hta a rfl), he.noTab v hv]
theorem texts_noTab {Ok : Str → Prop} {esc : Str → Str} (he : Escaper Ok esc) (fs : List Filter)
    (h : ∀ f ∈ fs, Valid Ok f) (t : Str) (ht : Filter.asTexts esc fs = .ok t) : '\t' ∉ t := by
  cases fs with
  | nil => cases ht; simp
  | cons f fs =>
    rw [Filter.asTexts] at ht
    cases h1 : Filter.asText esc f with
    | error e => rw [h1] at ht; cases ht
    | ok a =>
      cases h2 : Filter.asTexts esc fs with
      | error e => rw [h1, h2] at ht; cases ht
      | ok b =>
        rw [h1, h2] at ht; cases ht
        have := text_noTab he f (h f (by simp)) a h1
        have := texts_noTab he fs (fun g hg => h g (by simp [hg])) b h2
        simp [*]
end

/-- Printing and parsing a valid filter. -/
theorem parseFilter_text {Ok : Str → Prop} {esc : Str → Str} (he : Escaper Ok esc) (f : Filter) (h : Valid Ok f) :
    ∃ t, f.asText esc = .ok t ∧ parseFilter t = .ok f := by
  obtain ⟨t, ht, hl, hp⟩ := print_parse he f h
  refine ⟨t, ht, ?_⟩
  unfold parseFilter
  rw [expandTabs_id (text_noTab he f h t ht)]
  have := hp (bound t) [] (by unfold bound; omega)
  rw [List.append_nil] at this
  simp only [this]

theorem escape_escaper : Escaper TabFree escape :=
  ⟨fun v _ => escape_enc v, fun _ h => escape_noTab h.noTab, fun _ h => h.nonempty⟩

theorem binaryEscape_escaper : Escaper Latin binaryEscape :=
  ⟨fun _ h => (binaryEscape_enc h.small).1, fun _ h => (binaryEscape_enc h.small).2, fun _ h => h.nonempty⟩

end Verif.FilterText
