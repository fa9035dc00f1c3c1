import Verif.Model.Dn
/-
Helper lemmas about DN text: escaping, unescaping and splitting.
-/
namespace Verif.Dn

/-- `Esc s t`: the text `t` is `s` with some characters escaped, in a way the splitter and the unescaper understand. -/
inductive Esc : Str → Str → Prop where
  | nil : Esc [] []
  | plain (c : Char) (s t : Str) : c ∉ escapedChars → Esc s t → Esc (c :: s) (c :: t)
  | backslash (c : Char) (s t : Str) : c ∉ lowerHexDigits → Esc s t → Esc (c :: s) ('\\' :: c :: t)
  | hex (c : Char) (s t : Str) : c.toNat ≤ 31 → Esc s t →
      Esc (c :: s) ('\\' :: hexUpper (c.toNat / 16) :: hexUpper (c.toNat % 16) :: t)

theorem Esc.append {s t s' t' : Str} (h : Esc s t) (h' : Esc s' t') : Esc (s ++ s') (t ++ t') := by
  induction h with
  | nil => exact h'
  | plain c s t hc _ ih => exact .plain _ _ _ hc ih
  | backslash c s t hc _ ih => exact .backslash _ _ _ hc ih
  | hex c s t hc _ ih => exact .hex _ _ _ hc ih

theorem special_not_hex {c : Char} (h : c ∈ escapedChars) : c ∉ lowerHexDigits := by
  simp only [escapedChars, List.mem_cons, List.not_mem_nil, or_false] at h
  rcases h with rfl | rfl | rfl | rfl | rfl | rfl | rfl | rfl <;> decide

theorem esc_char (c : Char) : Esc [c] (escapeChar c) := by
  unfold escapeChar
  split
  · rename_i h; exact .backslash _ _ _ (special_not_hex h) .nil
  · split
    · rename_i h; exact .hex _ _ _ h .nil
    · rename_i h _; exact .plain _ _ _ h .nil

theorem esc_flatMap (s : Str) : Esc s (s.flatMap escapeChar) := by
  induction s with
  | nil => exact .nil
  | cons c s ih => exact Esc.append (esc_char c) ih

theorem leading_not_hex {c : Char} (h : c ∈ escapedLeading) : c ∉ lowerHexDigits := by
  simp only [escapedLeading, List.mem_cons, List.not_mem_nil, or_false] at h
  rcases h with rfl | rfl <;> decide

theorem trailing_not_hex {c : Char} (h : c ∈ escapedTrailing) : c ∉ lowerHexDigits := by
  simp only [escapedTrailing, List.mem_cons, List.not_mem_nil, or_false] at h
  rcases h with rfl | rfl <;> decide

theorem esc_rest (s : Str) : Esc s (escapeRest s) := by
  unfold escapeRest
  cases h : s.getLast? with
  | none =>
    have : s = [] := by simpa using h
    subst this; exact .nil
  | some c =>
    simp only
    split
    · rename_i hc
      have hs : s = s.dropLast ++ [c] := by
        obtain ⟨ys, rfl⟩ := List.getLast?_eq_some_iff.mp h
        simp
      have := Esc.append (esc_flatMap s.dropLast) (Esc.backslash c [] [] (trailing_not_hex hc) .nil)
      rw [← hs] at this; exact this
    · exact esc_flatMap s

theorem esc_escape (s : Str) : Esc s (escape s) := by
  unfold escape
  cases s with
  | nil => exact .nil
  | cons c s =>
    simp only
    split
    · rename_i h; exact .backslash _ _ _ (leading_not_hex h) (esc_rest s)
    · exact esc_rest _

/-! ### Unescaping -/

theorem hexUpper_first {n : Nat} (h : n ≤ 31) :
    hexUpper (n / 16) ∈ lowerHexDigits ∧ (hexValue (hexUpper (n / 16))).getD 0 = n / 16 := by
  have : n / 16 = 0 ∨ n / 16 = 1 := by omega
  rcases this with h | h <;> rw [h] <;> decide

theorem hexUpper_value {n : Nat} (h : n < 16) : hexValue (hexUpper n) = some n := by
  have : ∀ k : Fin 16, hexValue (hexUpper k.val) = some k.val := by decide
  exact this ⟨n, h⟩

theorem unescape_plain (U : Unicode) {c : Char} (h : c ≠ '\\') (s : Str) :
    unescape U (c :: s) = (unescape U s).map (c :: ·) := by
  rw [unescape.eq_def]
  split
  · rename_i e; cases e
  · rename_i e; cases e; exact absurd rfl h
  · rename_i e; cases e; exact absurd rfl h
  · rename_i e; cases e
    cases unescape U s <;> rfl

theorem unescape_backslash (U : Unicode) {c : Char} (hc : c ∉ lowerHexDigits) (s : Str) :
    unescape U ('\\' :: c :: s) = (unescape U s).map (c :: ·) := by
  rw [unescape.eq_def]
  simp only [if_neg hc]
  cases unescape U s <;> rfl

theorem ofNat_toNat (c : Char) : Char.ofNat c.toNat = c := Char.ofNat_toNat c

theorem unescape_hex (U : Unicode) {c : Char} (hc : c.toNat ≤ 31) (s : Str) :
    unescape U ('\\' :: hexUpper (c.toNat / 16) :: hexUpper (c.toNat % 16) :: s) = (unescape U s).map (c :: ·) := by
  have h1 := hexUpper_first hc
  rw [unescape.eq_def]
  simp only [if_pos h1.1, h1.2]
  have h2 : intHex U (c.toNat / 16) (hexUpper (c.toNat % 16)) = .ok c.toNat := by
    unfold intHex
    rw [hexUpper_value (by omega)]
    simp only
    congr 1; omega
  simp only [h2, bind, Except.bind, ofNat_toNat]
  cases unescape U s <;> rfl

theorem unescape_esc (U : Unicode) {s t : Str} (h : Esc s t) (rest : Str) :
    unescape U (t ++ rest) = (unescape U rest).map (s ++ ·) := by
  induction h with
  | nil => rw [List.nil_append]; cases unescape U rest <;> rfl
  | plain c s t hc _ ih =>
    rw [List.cons_append, unescape_plain U (by rintro rfl; exact hc (by decide)), ih]; cases unescape U rest <;> rfl
  | backslash c s t hc _ ih =>
    rw [List.cons_append, List.cons_append, unescape_backslash U hc, ih]; cases unescape U rest <;> rfl
  | hex c s t hc _ ih =>
    rw [List.cons_append, List.cons_append, List.cons_append, unescape_hex U hc, ih]; cases unescape U rest <;> rfl

/-- `unescape` undoes `escape`. -/
theorem unescape_escape (U : Unicode) (s : Str) : unescape U (escape s) = .ok s := by
  have := unescape_esc U (esc_escape s) []
  simpa [unescape, Except.map] using this

/-! ### Splitting -/

theorem splitLoop_backslash {sep c : Char} (b : Bool) (cur s : Str) :
    splitLoop sep b cur ('\\' :: c :: s) = splitLoop sep false (cur ++ ['\\', c]) s := by
  cases b <;> rfl

theorem splitLoop_false_cons {sep c : Char} (h1 : c ≠ '\\') (cur s : Str) :
    splitLoop sep false cur (c :: s) =
      if c = sep then cur :: splitLoop sep true [] s else splitLoop sep false (cur ++ [c]) s := by
  rw [splitLoop.eq_def]
  split
  · contradiction
  · contradiction
  · rename_i e; injection e with e1 e2; exact absurd e1 h1
  · rename_i e _; injection e with e1 e2; subst e1 e2; rfl

theorem splitLoop_true_cons {sep c : Char} (h1 : c ≠ '\\') (h2 : c ≠ ' ') (cur s : Str) :
    splitLoop sep true cur (c :: s) =
      if c = sep then cur :: splitLoop sep true [] s else splitLoop sep false (cur ++ [c]) s := by
  rw [splitLoop.eq_def]
  split
  · contradiction
  · rename_i e; injection e with e1 e2; exact absurd e1 h2
  · rename_i e; injection e with e1 e2; exact absurd e1 h1
  · rename_i e _; injection e with e1 e2; subst e1 e2; rfl

theorem splitLoop_plain_false {sep c : Char} (h1 : c ≠ '\\') (h2 : c ≠ sep) (cur s : Str) :
    splitLoop sep false cur (c :: s) = splitLoop sep false (cur ++ [c]) s := by
  rw [splitLoop_false_cons h1, if_neg h2]

theorem hexUpper_ne {n : Nat} (h : n < 16) : hexUpper n ∉ escapedChars ∧ hexUpper n ≠ ' ' := by
  have : ∀ k : Fin 16, hexUpper k.val ∉ escapedChars ∧ hexUpper k.val ≠ ' ' := by decide
  exact this ⟨n, h⟩

theorem splitLoop_esc_false {sep : Char} (hsep : sep ∈ escapedChars) {s t : Str} (h : Esc s t) (cur rest : Str) :
    splitLoop sep false cur (t ++ rest) = splitLoop sep false (cur ++ t) rest := by
  induction h generalizing cur with
  | nil => simp
  | plain c s t hc _ ih =>
    rw [List.cons_append, splitLoop_plain_false (by rintro rfl; exact hc (by decide)) (by rintro rfl; exact hc hsep), ih]
    simp
  | backslash c s t hc _ ih =>
    rw [List.cons_append, List.cons_append, splitLoop_backslash, ih]
    simp
  | hex c s t hc _ ih =>
    have h1 := hexUpper_ne (n := c.toNat % 16) (by omega)
    rw [List.cons_append, List.cons_append, List.cons_append, splitLoop_backslash,
      splitLoop_plain_false (by intro e; exact h1.1 (by rw [e]; decide)) (by intro e; exact h1.1 (by rw [e]; exact hsep)),
      ih]
    simp

/-- A text made of escaped pieces and characters other than the separator and the backslash: one piece of a split. -/
inductive Piece (sep : Char) : Str → Prop where
  | nil : Piece sep []
  | esc (s t rest : Str) : Esc s t → Piece sep rest → Piece sep (t ++ rest)
  | char (c : Char) (rest : Str) : c ≠ sep → c ≠ '\\' → Piece sep rest → Piece sep (c :: rest)
  | pair (c : Char) (rest : Str) : Piece sep rest → Piece sep ('\\' :: c :: rest)

theorem Piece.append {sep : Char} {a b : Str} (ha : Piece sep a) (hb : Piece sep b) : Piece sep (a ++ b) := by
  induction ha with
  | nil => exact hb
  | esc s t rest h _ ih => rw [List.append_assoc]; exact .esc _ _ _ h ih
  | char c rest h1 h2 _ ih => exact .char _ _ h1 h2 ih
  | pair c rest _ ih => exact .pair _ _ ih

theorem splitLoop_piece {sep : Char} (hsep : sep ∈ escapedChars) {p : Str} (h : Piece sep p) (cur rest : Str) :
    splitLoop sep false cur (p ++ rest) = splitLoop sep false (cur ++ p) rest := by
  induction h generalizing cur with
  | nil => simp
  | esc s t r h _ ih =>
    rw [List.append_assoc, splitLoop_esc_false hsep h, ih]; simp
  | char c r h1 h2 _ ih =>
    rw [List.cons_append, splitLoop_plain_false h2 h1, ih]; simp
  | pair c r _ ih => rw [List.cons_append, List.cons_append, splitLoop_backslash, ih]; simp

theorem splitLoop_skip {sep : Char} {p : Str} (hp : p.head? ≠ some ' ') (cur : Str) :
    splitLoop sep true cur p = splitLoop sep false cur p := by
  cases p with
  | nil => rfl
  | cons c s =>
    have hc : c ≠ ' ' := by rintro rfl; exact hp rfl
    by_cases h : c = '\\'
    · subst h
      cases s with
      | nil => rfl
      | cons d s => rw [splitLoop_backslash, splitLoop_backslash]
    · rw [splitLoop_false_cons h, splitLoop_true_cons h hc]

theorem splitLoop_sep {sep : Char} (h1 : sep ≠ '\\') (cur s : Str) :
    splitLoop sep false cur (sep :: s) = cur :: splitLoop sep true [] s := by
  rw [splitLoop_false_cons h1, if_pos rfl]

theorem splitLoop_join {sep : Char} (hsep : sep ∈ escapedChars) (h1 : sep ≠ '\\') (h2 : sep ≠ ' ') (p : Str)
    (ps : List Str) (hps : ∀ q ∈ p :: ps, Piece sep q) (hh : ∀ q ∈ ps, q.head? ≠ some ' ') (cur : Str) :
    splitLoop sep false cur (joinWith [sep] (p :: ps)) = (cur ++ p) :: ps := by
  induction ps generalizing p cur with
  | nil =>
    have := splitLoop_piece hsep (hps p (by simp)) cur []
    rw [List.append_nil] at this
    rw [joinWith, this]; rfl
  | cons q qs ih =>
    rw [joinWith, List.append_assoc, splitLoop_piece hsep (hps p (by simp)), List.singleton_append, splitLoop_sep h1]
    · rw [splitLoop_skip]
      · rw [ih q (fun x hx => hps x (List.mem_cons_of_mem _ hx)) (fun x hx => hh x (by simp [hx]))]
        simp
      · have hq := hh q (by simp)
        cases qs with
        | nil => exact hq
        | cons x xs =>
          rw [joinWith]
          · cases q with
            | nil => simp; intro e; exact h2 e
            | cons c t => simpa using hq
          · intro e; cases e
    · intro e; cases e

/-! ### Components -/

/-- What every parsed DN satisfies: attribute types contain no `=`. -/
def Ava.Plain (a : Ava) : Prop := '=' ∉ a.attributeType

theorem Ava.text_piece {sep : Char} (h : sep ≠ '=') (a : Ava) : Piece sep a.text :=
  .esc _ _ _ (esc_escape _) (.char _ _ (Ne.symm h) (by decide) (by
    have := Piece.esc (sep := sep) _ _ [] (esc_escape a.value) .nil
    rwa [List.append_nil] at this))

theorem esc_head {s t : Str} (h : Esc s t) (hs : s.head? ≠ some ' ') : t.head? ≠ some ' ' := by
  cases h with
  | nil => simp
  | plain c s t _ _ => simpa using hs
  | backslash c s t _ _ => simp
  | hex c s t _ _ => simp

theorem escape_head (s : Str) : (escape s).head? ≠ some ' ' := by
  cases s with
  | nil => simp [escape]
  | cons c s =>
    rw [escape]
    split
    · simp
    · rename_i h
      refine esc_head (esc_rest _) ?_
      simp only [List.head?_cons, ne_eq, Option.some.injEq]
      rintro rfl; exact h (by decide)

theorem Ava.text_head (a : Ava) : a.text.head? ≠ some ' ' := by
  unfold Ava.text
  have := escape_head a.attributeType
  cases h : escape a.attributeType with
  | nil => simp
  | cons c s => rw [h] at this; simpa using this

theorem Ava.text_ne (a : Ava) : a.text ≠ [] := by simp [Ava.text]

theorem takeWhile_plain {t v : Str} (h : '=' ∉ t) : (t ++ '=' :: v).takeWhile (· ≠ '=') = t := by
  induction t with
  | nil => simp
  | cons c t ih =>
    have h1 : c ≠ '=' := by rintro rfl; exact h (by simp)
    simp only [List.cons_append, List.takeWhile_cons, ne_eq, h1, not_false_eq_true, decide_true, ↓reduceIte]
    have := ih (fun hc => h (by simp [hc]))
    simp only [ne_eq] at this
    rw [this]

theorem dropWhile_plain {t v : Str} (h : '=' ∉ t) : (t ++ '=' :: v).dropWhile (· ≠ '=') = '=' :: v := by
  induction t with
  | nil => simp
  | cons c t ih =>
    have h1 : c ≠ '=' := by rintro rfl; exact h (by simp)
    simp only [List.cons_append, List.dropWhile_cons, ne_eq, h1, not_false_eq_true, decide_true, ↓reduceIte]
    have := ih (fun hc => h (by simp [hc]))
    simp only [ne_eq] at this
    rw [this]

theorem Ava.read_text (U : Unicode) (a : Ava) (h : a.Plain) : Ava.read U a.text = .ok a := by
  unfold Ava.read Ava.text
  rw [unescape_esc U (esc_escape _), unescape_plain U (by decide), unescape_escape]
  simp only [bind, Except.bind, Except.map]
  unfold Ava.parse
  rw [takeWhile_plain h, dropWhile_plain h]
  simp

theorem mapPy_of_forall {α β : Type} {f : α → Py β} {g : β → α} (l : List β) (h : ∀ x ∈ l, f (g x) = .ok x) :
    mapPy f (l.map g) = .ok l := by
  induction l with
  | nil => rfl
  | cons x xs ih =>
    rw [List.map_cons, mapPy, h x (by simp), ih (fun y hy => h y (by simp [hy]))]
    rfl

theorem joinWith_ne {sep : Char} {p : Str} {ps : List Str} (h : p ≠ [] ∨ ps ≠ []) : joinWith [sep] (p :: ps) ≠ [] := by
  cases ps with
  | nil => simpa [joinWith] using h
  | cons q qs => simp [joinWith]

theorem split_join {sep : Char} (hsep : sep ∈ escapedChars) (h1 : sep ≠ '\\') (h2 : sep ≠ ' ') (ps : List Str)
    (hne : ps ≠ [[]]) (hps : ∀ q ∈ ps, Piece sep q) (hh : ∀ q ∈ ps, q.head? ≠ some ' ') :
    splitOnNotEscaped (joinWith [sep] ps) sep = ps := by
  cases ps with
  | nil => rfl
  | cons p ps =>
    unfold splitOnNotEscaped
    rw [if_neg]
    · rw [splitLoop_join hsep h1 h2 p ps hps (fun q hq => hh q (List.mem_cons_of_mem _ hq))]; simp
    · apply joinWith_ne
      by_cases hp : ps = []
      · left; rintro rfl; exact hne (by rw [hp])
      · right; exact hp

theorem Rdn.parse_text (U : Unicode) (r : Rdn) (h : ∀ a ∈ r, a.Plain) : Rdn.parse U r.text = .ok r := by
  unfold Rdn.parse Rdn.text
  rw [split_join (by decide) (by decide) (by decide)]
  · exact mapPy_of_forall _ fun a ha => Ava.read_text U a (h a ha)
  · intro e
    cases r with
    | nil => cases e
    | cons a r => simp only [List.map_cons, List.cons.injEq] at e; exact Ava.text_ne _ e.1
  · intro q hq
    obtain ⟨a, _, rfl⟩ := List.mem_map.mp hq
    exact Ava.text_piece (by decide) a
  · intro q hq
    obtain ⟨a, _, rfl⟩ := List.mem_map.mp hq
    exact Ava.text_head a

theorem joinWith_piece {sep c : Char} (h1 : c ≠ sep) (h2 : c ≠ '\\') (ps : List Str) (h : ∀ p ∈ ps, Piece sep p) :
    Piece sep (joinWith [c] ps) := by
  induction ps with
  | nil => exact .nil
  | cons p ps ih =>
    cases ps with
    | nil => exact h p (by simp)
    | cons q qs =>
      rw [joinWith]
      · exact .append (.append (h p (by simp)) (.char _ _ h1 h2 .nil)) (ih fun x hx => h x (List.mem_cons_of_mem _ hx))
      · intro e; cases e

theorem Rdn.text_piece (r : Rdn) : Piece ',' r.text := by
  apply joinWith_piece (by decide) (by decide)
  intro q hq
  obtain ⟨a, _, rfl⟩ := List.mem_map.mp hq
  exact Ava.text_piece (by decide) a

theorem Rdn.text_head (r : Rdn) : r.text.head? ≠ some ' ' := by
  unfold Rdn.text
  cases r with
  | nil => simp [joinWith]
  | cons a r =>
    have h1 := Ava.text_head a
    have h2 := Ava.text_ne a
    rw [List.map_cons]
    cases r with
    | nil => exact h1
    | cons b r =>
      rw [List.map_cons, joinWith]
      · cases h : a.text with
        | nil => exact absurd h h2
        | cons c t => rw [h] at h1; simpa using h1
      · intro e; cases e

theorem Rdn.text_eq_nil {r : Rdn} (h : r.text = []) : r = [] := by
  cases r with
  | nil => rfl
  | cons a r =>
    unfold Rdn.text at h
    rw [List.map_cons] at h
    exact absurd h (joinWith_ne (.inl (Ava.text_ne a)))

/-- The DNs whose text parses back: attribute types without `=`, and not the DN with one empty RDN. -/
structure Dn.Good (d : Dn) : Prop where
  plain : ∀ r ∈ d, ∀ a ∈ r, a.Plain
  notEmptyRdn : d ≠ [[]]

theorem Dn.parse_text (U : Unicode) (d : Dn) (h : d.Good) : Dn.parse U d.text = .ok d := by
  unfold Dn.parse Dn.text
  rw [split_join (by decide) (by decide) (by decide)]
  · exact mapPy_of_forall _ fun r hr => Rdn.parse_text U r (h.plain r hr)
  · intro e
    cases d with
    | nil => cases e
    | cons r d =>
      simp only [List.map_cons, List.cons.injEq, List.map_eq_nil_iff] at e
      exact h.notEmptyRdn (by rw [Rdn.text_eq_nil e.1, e.2])
  · intro q hq
    obtain ⟨a, _, rfl⟩ := List.mem_map.mp hq
    exact Rdn.text_piece a
  · intro q hq
    obtain ⟨a, _, rfl⟩ := List.mem_map.mp hq
    exact Rdn.text_head a

/-! ### What parsing yields -/

theorem mapPy_mem {α β : Type} {f : α → Py β} {l : List α} {r : List β} (h : mapPy f l = .ok r) :
    ∀ y ∈ r, ∃ x ∈ l, f x = .ok y := by
  induction l generalizing r with
  | nil => cases h; simp
  | cons x xs ih =>
    rw [mapPy] at h
    simp only [bind, Except.bind, pure, Except.pure] at h
    cases hx : f x with
    | error e => rw [hx] at h; cases h
    | ok a =>
      rw [hx] at h
      cases hxs : mapPy f xs with
      | error e => rw [hxs] at h; cases h
      | ok b =>
        rw [hxs] at h; cases h
        intro y hy
        rcases List.mem_cons.mp hy with rfl | hy
        · exact ⟨x, by simp, hx⟩
        · obtain ⟨z, hz, hf⟩ := ih hxs y hy
          exact ⟨z, by simp [hz], hf⟩

theorem mapPy_length {α β : Type} {f : α → Py β} {l : List α} {r : List β} (h : mapPy f l = .ok r) :
    r.length = l.length := by
  induction l generalizing r with
  | nil => cases h; rfl
  | cons x xs ih =>
    rw [mapPy] at h
    simp only [bind, Except.bind, pure, Except.pure] at h
    cases hx : f x with
    | error e => rw [hx] at h; cases h
    | ok a =>
      rw [hx] at h
      cases hxs : mapPy f xs with
      | error e => rw [hxs] at h; cases h
      | ok b => rw [hxs] at h; cases h; simp [ih hxs]

theorem Ava.parse_plain {s : Str} {a : Ava} (h : Ava.parse s = .ok a) : a.Plain := by
  unfold Ava.parse at h
  split at h
  · cases h
    intro hm
    have := List.all_eq_true.mp List.all_takeWhile _ hm
    simp at this
  · cases h

theorem Ava.read_plain {U : Unicode} {s : Str} {a : Ava} (h : Ava.read U s = .ok a) : a.Plain := by
  unfold Ava.read at h
  cases hu : unescape U s with
  | error e => rw [hu] at h; cases h
  | ok t => rw [hu] at h; exact Ava.parse_plain h

theorem splitLoop_head (sep : Char) (b : Bool) (cur s : Str) :
    ∃ t l, splitLoop sep b cur s = (cur ++ t) :: l := by
  fun_induction splitLoop sep b cur s with
  | case1 b cur => exact ⟨[], [], by simp⟩
  | case2 cur s ih => exact ih
  | case3 b cur c s ih => obtain ⟨t, l, e⟩ := ih; exact ⟨_, _, by rw [e, List.append_assoc]⟩
  | case4 => exact ⟨[], _, by rw [List.append_nil]⟩
  | case5 b cur c s h1 h2 h3 ih => obtain ⟨t, l, e⟩ := ih; exact ⟨_, _, by rw [e, List.append_assoc]⟩

theorem split_ne (s : Str) (sep : Char) : splitOnNotEscaped s sep ≠ [[]] := by
  unfold splitOnNotEscaped
  split
  · simp
  · rename_i hs
    cases s with
    | nil => exact absurd rfl hs
    | cons c s =>
      by_cases h : c = '\\'
      · subst h
        cases s with
        | nil =>
          have : splitLoop sep false [] ['\\'] = if '\\' = sep then [[], []] else [['\\']] := rfl
          rw [this]; split <;> simp
        | cons d s =>
          rw [splitLoop_backslash]
          obtain ⟨t, l, e⟩ := splitLoop_head sep false ([] ++ ['\\', d]) s
          rw [e]; simp
      · rw [splitLoop_false_cons h]
        split
        · obtain ⟨t, l, e⟩ := splitLoop_head sep true [] s
          rw [e]; simp
        · obtain ⟨t, l, e⟩ := splitLoop_head sep false ([] ++ [c]) s
          rw [e]; simp

theorem split_eq_nil {s : Str} {sep : Char} (h : splitOnNotEscaped s sep = []) : s = [] := by
  unfold splitOnNotEscaped at h
  split at h
  · assumption
  · obtain ⟨t, l, e⟩ := splitLoop_head sep false [] s
    rw [e] at h; cases h

theorem Rdn.parse_nil {U : Unicode} {s : Str} (h : Rdn.parse U s = .ok []) : s = [] := by
  have := mapPy_length h
  exact split_eq_nil (List.length_eq_zero_iff.mp this.symm)

theorem Dn.parse_good {U : Unicode} {s : Str} {d : Dn} (h : Dn.parse U s = .ok d) : d.Good := by
  constructor
  · intro r hr a ha
    obtain ⟨x, _, hx⟩ := mapPy_mem h r hr
    obtain ⟨y, _, hy⟩ := mapPy_mem hx a ha
    exact Ava.read_plain hy
  · rintro rfl
    have hl := mapPy_length h
    unfold Dn.parse at h
    match hsp : splitOnNotEscaped s ',' with
    | [] => rw [hsp] at hl; cases hl
    | x :: y :: l => rw [hsp] at hl; simp at hl
    | [x] =>
      rw [hsp] at h
      obtain ⟨z, hz, hx⟩ := mapPy_mem h [] (by simp)
      simp only [List.mem_cons, List.not_mem_nil, or_false] at hz
      subst hz
      have := Rdn.parse_nil hx
      subst this
      exact split_ne s ',' hsp

end Verif.Dn
