import Verif.Model.Schema
/-
Printing and parsing the parts of schema descriptions.
-/
namespace Verif.Schema
open Verif.Password (isSpace)

/-- A word: not empty, without white space. -/
def Word (w : Bytes) : Prop := w ≠ [] ∧ ∀ b ∈ w, isSpace b = false

/-- Nothing, or a text that starts with white space. -/
def Gap (g : Bytes) : Prop := g = [] ∨ ∃ b t, g = b :: t ∧ isSpace b = true

theorem lstrip_cons_space {b : UInt8} {t : Bytes} (h : isSpace b = true) : lstrip (b :: t) = lstrip t := by simp [lstrip, h]

theorem lstrip_cons {b : UInt8} {t : Bytes} (h : isSpace b = false) : lstrip (b :: t) = b :: t := by simp [lstrip, h]

theorem lstrip_nil : lstrip [] = [] := rfl

theorem lstrip_spaces {s t : Bytes} (h : ∀ b ∈ s, isSpace b = true) : lstrip (s ++ t) = lstrip t := by
  induction s with
  | nil => rfl
  | cons b s ih =>
    rw [List.cons_append, lstrip_cons_space (h b (by simp))]
    exact ih fun c hc => h c (by simp [hc])

theorem lstrip_word {w t : Bytes} (hw : Word w) : lstrip (w ++ t) = w ++ t := by
  obtain ⟨h1, h2⟩ := hw
  cases w with
  | nil => exact absurd rfl h1
  | cons b w => exact lstrip_cons (h2 b (by simp))

theorem lstrip_head (t : Bytes) : lstrip t = [] ∨ ∃ b r, lstrip t = b :: r ∧ isSpace b = false := by
  induction t with
  | nil => exact .inl rfl
  | cons b t ih =>
    by_cases h : isSpace b = true
    · rw [lstrip_cons_space h]; exact ih
    · exact .inr ⟨b, t, lstrip_cons (by simpa using h), by simpa using h⟩

theorem lstrip_idem (t : Bytes) : lstrip (lstrip t) = lstrip t := by
  rcases lstrip_head t with h | ⟨b, r, h, hb⟩
  · rw [h]; rfl
  · rw [h, lstrip_cons hb]

theorem takeWhile_word {w g : Bytes} (hw : ∀ b ∈ w, isSpace b = false) (hg : Gap g) :
    (w ++ g).takeWhile (fun c => !isSpace c) = w ∧ (w ++ g).dropWhile (fun c => !isSpace c) = g := by
  induction w with
  | nil =>
    rcases hg with rfl | ⟨b, t, rfl, hb⟩
    · simp
    · simp [hb]
  | cons b w ih =>
    obtain ⟨h1, h2⟩ := ih fun c hc => hw c (by simp [hc])
    have := hw b (by simp)
    simp [this, h1, h2]

theorem word_append {w g : Bytes} (hw : Word w) (hg : Gap g) : word (w ++ g) = w := by
  unfold word
  rw [lstrip_word hw]
  exact (takeWhile_word hw.2 hg).1

theorem extractWord_append {w g : Bytes} (hw : Word w) (hg : Gap g) : extractWord (w ++ g) = .ok (w, lstrip g) := by
  have hne : w ++ g ≠ [] := by simp [hw.1]
  unfold extractWord
  rw [if_neg hne, lstrip_word hw, if_neg hne, word_append hw hg, (takeWhile_word hw.2 hg).2]

theorem peekWord_append {w g : Bytes} (hw : Word w) (hg : Gap g) : peekWord (w ++ g) = .ok (some w) := by
  have hne : w ++ g ≠ [] := by simp [hw.1]
  unfold peekWord
  rw [if_neg hne, lstrip_word hw, if_neg hne, word_append hw hg]

theorem cut_append {c : UInt8} {s t : Bytes} (h : c ∉ s) : cut c (s ++ c :: t) = .ok (s, t) := by
  induction s with
  | nil => simp [cut]
  | cons b s ih =>
    rw [List.mem_cons, not_or] at h
    simp [cut, ih h.2, Ne.symm h.1]

theorem cut_ok {c : UInt8} {t s r : Bytes} (h : cut c t = .ok (s, r)) : t = s ++ c :: r ∧ c ∉ s := by
  induction t generalizing s r with
  | nil => cases h
  | cons b t ih =>
    unfold cut at h
    split at h
    · rename_i e
      cases h
      exact ⟨by simp [e], by simp⟩
    · rename_i e
      cases hc : cut c t with
      | error x => simp [hc] at h
      | ok p =>
        obtain ⟨x, y⟩ := p
        simp only [hc, Except.ok.injEq, Prod.mk.injEq] at h
        obtain ⟨h1, h2⟩ := ih hc
        rw [← h.1, ← h.2]
        exact ⟨by rw [h1]; rfl, by simp [h2, Ne.symm e]⟩

/-! A list of items, ready to be parsed. -/

variable {sep : Bytes}

/-- What is left to parse after white space has been removed. -/
def after (sep : Bytes) (l : List Bytes) : Bytes :=
  match l with
  | [] => []
  | x :: l => join sep (x :: l) ++ [32]

/-- What follows an item. -/
def more (sep : Bytes) (l : List Bytes) : Bytes :=
  match l with
  | [] => [32]
  | x :: l => sep ++ after sep (x :: l)

theorem after_cons (x : Bytes) (l : List Bytes) : after sep (x :: l) = x ++ more sep l := by
  cases l with
  | nil => rfl
  | cons y l => simp [after, more, join]

/-- The separator is white space. -/
def Sep (sep : Bytes) : Prop := sep ≠ [] ∧ ∀ b ∈ sep, isSpace b = true

theorem newline_sep : Sep newline := ⟨by decide +kernel, by decide +kernel⟩
theorem space_sep : Sep [32] := ⟨by decide, by decide⟩

theorem more_gap (hs : Sep sep) (l : List Bytes) : Gap (more sep l) := by
  cases l with
  | nil => exact .inr ⟨32, [], rfl, by decide⟩
  | cons x l =>
    obtain ⟨h1, h2⟩ := hs
    cases sep with
    | nil => exact absurd rfl h1
    | cons b s => exact .inr ⟨b, _, rfl, h2 b (by simp)⟩

/-- Every item starts with one of these keywords. -/
def Heads (ks : List Bytes) (l : List Bytes) : Prop :=
  ∀ x ∈ l, ∃ k g, x = k ++ g ∧ Word k ∧ Gap g ∧ k ∈ ks

theorem gap_append {g : Bytes} (hg : Gap g) (hs : Sep sep) (l : List Bytes) : Gap (g ++ more sep l) := by
  rcases hg with rfl | ⟨b, t, rfl, hb⟩
  · exact more_gap hs l
  · exact .inr ⟨b, _, rfl, hb⟩

theorem Heads.after_fixed {ks l : List Bytes} (h : Heads ks l) : lstrip (after sep l) = after sep l := by
  cases l with
  | nil => rfl
  | cons x l =>
    obtain ⟨k, g, rfl, hk, _⟩ := h x (by simp)
    rw [after_cons, List.append_assoc, lstrip_word hk]

theorem Heads.lstrip_more {ks l : List Bytes} (hs : Sep sep) (h : Heads ks l) : lstrip (more sep l) = after sep l := by
  cases l with
  | nil => show lstrip [32] = []; decide
  | cons x l => simp only [more]; rw [lstrip_spaces hs.2, h.after_fixed]

/-- Dropping the first blank makes no difference. -/
theorem Heads.lstrip_drop {ks l : List Bytes} (hs : Sep sep) (h : Heads ks l) : lstrip ((more sep l).drop 1) = after sep l := by
  rcases more_gap hs l with e | ⟨b, t, e, hb⟩
  · cases l with
    | nil => cases e
    | cons x l =>
      simp only [more, List.append_eq_nil_iff] at e
      exact absurd e.1 hs.1
  · rw [← h.lstrip_more hs, e, lstrip_cons_space hb]; rfl

theorem Heads.peek {ks l : List Bytes} (hs : Sep sep) (h : Heads ks l) :
    (l = [] ∧ peekWord (after sep l) = .ok none) ∨
      ∃ k, k ∈ ks ∧ peekWord (after sep l) = .ok (some k) := by
  cases l with
  | nil => exact .inl ⟨rfl, rfl⟩
  | cons x l =>
    obtain ⟨k, g, rfl, hk, hg, hm⟩ := h x (by simp)
    refine .inr ⟨k, hm, ?_⟩
    rw [after_cons, List.append_assoc]
    exact peekWord_append hk (gap_append hg hs l)

theorem heads_nil : Heads [] [] := fun _ h => nomatch h

theorem Heads.mono {ks ks' l : List Bytes} (h : Heads ks l) (hk : ∀ k ∈ ks, k ∈ ks') : Heads ks' l := by
  intro x hx
  obtain ⟨k, g, h1, h2, h3, h4⟩ := h x hx
  exact ⟨k, g, h1, h2, h3, hk k h4⟩

theorem heads_append {ks ks' l l' : List Bytes} (h : Heads ks l) (h' : Heads ks' l') : Heads (ks ++ ks') (l ++ l') := by
  intro x hx
  rcases List.mem_append.mp hx with hx | hx
  · exact (h.mono fun k hk => List.mem_append.mpr (.inl hk)) x hx
  · exact (h'.mono fun k hk => List.mem_append.mpr (.inr hk)) x hx

theorem heads_item {k : String} (hk : Word (kw k)) (x : Option Bytes) : Heads [kw k] (item k x) := by
  intro y hy
  cases x with
  | none => cases hy
  | some b =>
    rw [List.mem_singleton.mp hy]
    exact ⟨kw k, [32] ++ b, by simp, hk, .inr ⟨32, b, rfl, by decide⟩, by simp⟩

theorem heads_flag {k : String} (hk : Word (kw k)) (b : Bool) : Heads [kw k] (flag k b) := by
  intro y hy
  cases b with
  | false => cases hy
  | true =>
    rw [List.mem_singleton.mp hy]
    exact ⟨kw k, [], by simp, hk, .inl rfl, by simp⟩

/-! One clause. -/

theorem clause_absent {α : Type} {k : Bytes} {f : Bytes → Py (α × Bytes)} {T : Bytes} {ks l : List Bytes} (hs : Sep sep)
    (hT : lstrip T = after sep l) (hl : Heads ks l) (hk : k ∉ ks) :
    clause k f T = .ok (none, after sep l) := by
  unfold clause
  rw [hT]
  rcases hl.peek hs with ⟨_, h⟩ | ⟨k', hm, h⟩
  · simp [h, bind, Except.bind, pure, Except.pure]
  · have : k' ≠ k := by
      rintro rfl
      exact hk hm
    simp [h, bind, Except.bind, pure, Except.pure, this]

theorem clause_present {α : Type} {k g : Bytes} {f : Bytes → Py (α × Bytes)} {T T' : Bytes} {l : List Bytes} {x : α} (hs : Sep sep)
    (hT : lstrip T = after sep ((k ++ g) :: l)) (hk : Word k) (hg : Gap g)
    (hf : f ((k ++ g ++ more sep l).drop (k.length + 1)) = .ok (x, T')) : clause k f T = .ok (some x, T') := by
  unfold clause
  rw [hT, after_cons]
  have : peekWord (k ++ g ++ more sep l) = .ok (some k) := by
    rw [List.append_assoc]; exact peekWord_append hk (gap_append hg hs l)
  rw [this]
  simp only [bind, Except.bind, pure, Except.pure, hf, if_pos]

/-- A keyword with a value. -/
theorem item_step {α : Type} {k : String} {x : Option α} {render : α → Bytes} {f : Bytes → Py (α × Bytes)} {T : Bytes}
    {ks l : List Bytes} (hs : Sep sep) (hT : lstrip T = after sep (item k (x.map render) ++ l)) (hl : Heads ks l) (hk : Word (kw k))
    (hn : kw k ∉ ks)
    (hf : ∀ y, x = some y → ∃ T', f (render y ++ more sep l) = .ok (y, T') ∧ lstrip T' = after sep l) :
    ∃ T', clause (kw k) f T = .ok (x, T') ∧ lstrip T' = after sep l := by
  cases x with
  | none => exact ⟨_, clause_absent hs hT hl hn, hl.after_fixed⟩
  | some y =>
    obtain ⟨T', h1, h2⟩ := hf y rfl
    refine ⟨T', clause_present (g := [32] ++ render y) (l := l) hs (by rw [hT]; simp [item]) hk (.inr ⟨32, _, rfl, by decide⟩) ?_, h2⟩
    rw [← h1]
    congr 1
    rw [List.append_assoc, List.drop_append, List.drop_eq_nil_of_le (by omega)]
    simp

/-- A keyword alone. -/
theorem flag_step {k : String} {b : Bool} {T : Bytes} {ks l : List Bytes} (hs : Sep sep)
    (hT : lstrip T = after sep (flag k b ++ l)) (hl : Heads ks l) (hk : Word (kw k)) (hn : kw k ∉ ks) :
    ∃ T', clause (kw k) nothing T = .ok (if b then some () else none, T') ∧ lstrip T' = after sep l := by
  cases b with
  | false => exact ⟨_, clause_absent hs hT hl hn, hl.after_fixed⟩
  | true =>
    refine ⟨(more sep l).drop 1, clause_present (g := []) (l := l) hs (by rw [hT]; simp [flag]) hk (.inl rfl) ?_, hl.lstrip_drop hs⟩
    unfold nothing
    congr 2
    rw [List.append_nil, List.drop_append, List.drop_eq_nil_of_le (by omega)]
    simp

/-! Values. -/

theorem oneString_step {s m : Bytes} (h : (39 : UInt8) ∉ s) : oneString (quoted s ++ m) = .ok (s, m) := by
  unfold oneString quoted
  rw [show [39] ++ s ++ [39] ++ m = 39 :: (s ++ 39 :: m) by simp, lstrip_cons (by decide)]
  exact cut_append h

/-- A word, or nothing if nothing follows. -/
def WordOk (w : Bytes) (l : List Bytes) : Prop := Word w ∨ (w = [] ∧ l = [])

theorem oneWord_step {w : Bytes} {ks l : List Bytes} (hs : Sep sep) (hl : Heads ks l) (hw : WordOk w l) :
    oneWord (w ++ more sep l) = .ok (w, after sep l) := by
  unfold oneWord
  rcases hw with hw | ⟨rfl, rfl⟩
  · rw [lstrip_word hw, extractWord_append hw (more_gap hs l), hl.lstrip_more hs]
  · show extractWord (lstrip [32]) = .ok ([], [])
    decide

/-- The quoted strings that follow the first one. -/
def rest32 : List Bytes → Bytes
  | [] => []
  | y :: l => 32 :: join [32] ((y :: l).map quoted)

theorem join_quoted_cons (s : Bytes) (l : List Bytes) :
    join [32] ((s :: l).map quoted) = (39 :: (s ++ 39 :: rest32 l) : Bytes) := by
  cases l with
  | nil => simp [join, quoted, rest32]
  | cons y l => simp [join, quoted, rest32]

theorem stringsLoop_join {l : List Bytes} (h : ∀ s ∈ l, (39 : UInt8) ∉ s) : ∀ (fuel : Nat) (pre post : Bytes), (∀ b ∈ pre, isSpace b = true) →
    (∀ b ∈ post, isSpace b = true) → l.length < fuel → stringsLoop fuel (pre ++ join [32] (l.map quoted) ++ post) = .ok l := by
  induction l with
  | nil =>
    intro fuel pre post h1 h2 hf
    cases fuel with
    | zero => omega
    | succ fuel =>
      have : lstrip (pre ++ join [32] (([] : List Bytes).map quoted) ++ post) = [] := by
        rw [List.append_assoc, lstrip_spaces h1]
        have := lstrip_spaces (t := []) h2
        rw [List.append_nil] at this
        simpa [join, lstrip_nil] using this
      simp only [stringsLoop, this]
  | cons s l ih =>
    intro fuel pre post h1 h2 hf
    cases fuel with
    | zero => omega
    | succ fuel =>
      have hl : lstrip (pre ++ join [32] ((s :: l).map quoted) ++ post) = (39 :: (s ++ 39 :: (rest32 l ++ post)) : Bytes) := by
        rw [List.append_assoc, lstrip_spaces h1, join_quoted_cons, List.cons_append, lstrip_cons (by decide)]
        simp
      have hrest : stringsLoop fuel (rest32 l ++ post) = .ok l := by
        cases l with
        | nil => exact ih (by simp) fuel [] post (by simp) h2 (by simp at hf ⊢; omega)
        | cons y l =>
          exact ih (fun s hs => h s (by simp [hs])) fuel [32] post (by decide) h2 (by simp at hf ⊢; omega)
      simp only [stringsLoop, hl, cut_append (h s (by simp)), bind, Except.bind, pure, Except.pure, hrest]
      simp

theorem join_length (l : List Bytes) : l.length ≤ (join [32] (l.map quoted)).length := by
  induction l with
  | nil => simp
  | cons s l ih =>
    rw [join_quoted_cons]
    cases l with
    | nil => simp
    | cons y l => simp only [rest32, List.length_cons, List.length_append] at ih ⊢; omega

theorem mem_join_quoted {c : UInt8} (hc : c ≠ 39) (hc' : c ≠ 32) {l : List Bytes} (h : ∀ s ∈ l, c ∉ s) : c ∉ join [32] (l.map quoted) := by
  induction l with
  | nil => simp [join]
  | cons s l ih =>
    rw [join_quoted_cons]
    have := ih fun s hs => h s (by simp [hs])
    have := h s (by simp)
    cases l <;> simp_all [rest32, join]

/-- A text in parentheses. -/
theorem cut_paren {J : Bytes} (h : (41 : UInt8) ∉ J) (m : Bytes) :
    ∃ t, paren J ++ m = 40 :: t ∧ cut 41 (lstrip t) = .ok (lstrip (J ++ [32]), m) := by
  refine ⟨32 :: (J ++ [32, 41] ++ m), by simp [paren], ?_⟩
  rw [lstrip_cons_space (by decide)]
  have e : ∀ J : Bytes, (41 : UInt8) ∉ J → lstrip (J ++ [32, 41] ++ m) = lstrip (J ++ [32]) ++ 41 :: m ∧ (41 : UInt8) ∉ lstrip (J ++ [32]) := by
    intro J hJ
    induction J with
    | nil =>
      refine ⟨?_, by decide⟩
      show lstrip (32 :: 41 :: m) = _
      rw [lstrip_cons_space (by decide), lstrip_cons (by decide)]; rfl
    | cons b J ih =>
      rw [List.mem_cons, not_or] at hJ
      by_cases hb : isSpace b = true
      · rw [List.cons_append, List.cons_append, List.cons_append, lstrip_cons_space hb, lstrip_cons_space hb]
        exact ih hJ.2
      · have hb : isSpace b = false := by simpa using hb
        rw [List.cons_append, List.cons_append, List.cons_append, lstrip_cons hb, lstrip_cons hb]
        refine ⟨by simp, ?_⟩
        simp only [List.mem_cons, List.mem_append, not_or, List.not_mem_nil, or_false]
        exact ⟨hJ.1, hJ.2, by decide⟩
  rw [(e _ h).1]
  exact cut_append (e _ h).2

/-- A list of strings in parentheses. -/
theorem paren_strings {l : List Bytes} (h1 : ∀ s ∈ l, (39 : UInt8) ∉ s) (h2 : ∀ s ∈ l, (41 : UInt8) ∉ s) (m : Bytes) :
    ∃ t s, paren (join [32] (l.map quoted)) ++ m = 40 :: t ∧ cut 41 (lstrip t) = .ok (s, m) ∧ stringsToList s = .ok l := by
  obtain ⟨t, e1, e2⟩ := cut_paren (mem_join_quoted (by decide) (by decide) h2) m
  refine ⟨t, _, e1, e2, ?_⟩
  unfold stringsToList
  have hb : lstrip (join [32] (l.map quoted) ++ [32]) = (if l = [] then [] else join [32] (l.map quoted) ++ [32]) := by
    cases l with
    | nil => decide
    | cons s l => rw [join_quoted_cons, List.cons_append, lstrip_cons (by decide)]; simp
  rw [hb]
  split
  · rename_i e; subst e; decide
  · exact stringsLoop_join h1 ((join [32] (l.map quoted) ++ [32]).length + 1) [] [32] (by simp) (by decide) (by
      have := join_length l
      simp only [List.length_append, List.length_singleton]
      omega)

/-- Names that can be printed. -/
structure NamesOk (l : List Bytes) : Prop where
  some : l ≠ []
  quote : ∀ s ∈ l, (39 : UInt8) ∉ s
  paren : l.length > 1 → ∀ s ∈ l, (41 : UInt8) ∉ s

theorem names_step {l : List Bytes} (h : NamesOk l) (m : Bytes) : names (strList l ++ m) = .ok (l, m) := by
  unfold strList
  split
  · rename_i hl
    obtain ⟨t, s, e1, e2, e3⟩ := paren_strings h.quote (h.paren hl) m
    unfold names
    rw [e1, lstrip_cons (by decide)]
    simp only [e2, e3, bind, Except.bind, pure, Except.pure]
  · rename_i hl
    match l, h, hl with
    | [], h, _ => exact absurd rfl h.some
    | [s], h, _ =>
      unfold names
      simp only [List.map_cons, List.map_nil, join, quoted]
      rw [show [39] ++ s ++ [39] ++ m = 39 :: (s ++ 39 :: m) by simp, lstrip_cons (by decide)]
      simp only [cut_append (h.quote s (by simp)), bind, Except.bind, pure, Except.pure]
    | _ :: _ :: _, _, hl => simp at hl

/-! Lists of names separated by dollar signs. -/

theorem splitDollar_none {x : Bytes} (h : (36 : UInt8) ∉ x) : splitDollar x = [x] := by
  induction x with
  | nil => rfl
  | cons b x ih =>
    rw [List.mem_cons, not_or] at h
    simp [splitDollar, ih h.2, Ne.symm h.1]

theorem splitDollar_append {x t : Bytes} (h : (36 : UInt8) ∉ x) : splitDollar (x ++ 36 :: t) = x :: splitDollar t := by
  induction x with
  | nil => simp [splitDollar]
  | cons b x ih =>
    rw [List.mem_cons, not_or] at h
    simp [splitDollar, ih h.2, Ne.symm h.1]

theorem lstrip_append_spaces {e post : Bytes} (h : lstrip e = e) (he : e ≠ []) : lstrip (e ++ post) = e ++ post := by
  rcases lstrip_head e with h' | ⟨b, r, h', hb⟩
  · rw [h] at h'; exact absurd h' he
  · rw [h] at h'
    rw [h', List.cons_append, lstrip_cons hb]

theorem strip_fixed {e : Bytes} (h : strip e = e) (he : e ≠ []) : lstrip e = e ∧ lstrip e.reverse = e.reverse := by
  have hlen : ∀ t : Bytes, (lstrip t).length ≤ t.length := by
    intro t
    unfold lstrip
    exact (List.dropWhile_sublist _).length_le
  have h1 : lstrip e = e := by
    rcases lstrip_head e with h' | ⟨b, r, h', hb⟩
    · unfold strip at h
      rw [h'] at h
      exact absurd h.symm he
    · have hl : (lstrip e).length = e.length := by
        have a := hlen e
        have b := hlen (lstrip e).reverse
        have c : (strip e).length = e.length := by rw [h]
        unfold strip at c
        rw [List.length_reverse] at b c
        omega
      exact (List.dropWhile_sublist _).eq_of_length hl
  refine ⟨h1, ?_⟩
  unfold strip at h
  rw [h1] at h
  have := congrArg List.reverse h
  rwa [List.reverse_reverse] at this

theorem strip_pad {e pre post : Bytes} (h : strip e = e) (he : e ≠ []) (h1 : ∀ b ∈ pre, isSpace b = true) (h2 : ∀ b ∈ post, isSpace b = true) :
    strip (pre ++ e ++ post) = e := by
  obtain ⟨h3, h4⟩ := strip_fixed h he
  unfold strip
  rw [List.append_assoc, lstrip_spaces h1, lstrip_append_spaces h3 he, List.reverse_append,
    lstrip_spaces (fun b hb => h2 b (List.mem_reverse.mp hb)), h4, List.reverse_reverse]

/-- A name that can be printed in a list. -/
structure OidOk (e : Bytes) : Prop where
  some : e ≠ []
  dollar : (36 : UInt8) ∉ e
  paren : (41 : UInt8) ∉ e
  strip : strip e = e

theorem split_join {l : List Bytes} (h : ∀ e ∈ l, OidOk e) (hl : l ≠ []) : ∀ pre post : Bytes, (∀ b ∈ pre, isSpace b = true) →
    (∀ b ∈ post, isSpace b = true) → (splitDollar (pre ++ join [32, 36, 32] l ++ post)).map strip = l := by
  have nd : ∀ p : Bytes, (∀ b ∈ p, isSpace b = true) → (36 : UInt8) ∉ p := by
    intro p hp hm
    have := hp 36 hm
    exact absurd this (by decide)
  induction l with
  | nil => exact absurd rfl hl
  | cons e l ih =>
    intro pre post h1 h2
    have he := h e (by simp)
    cases l with
    | nil =>
      rw [splitDollar_none (by simp [join, nd pre h1, nd post h2, he.dollar])]
      have := strip_pad he.strip he.some h1 h2
      simp only [join, List.map_cons, List.map_nil, this]
    | cons y l =>
      have : pre ++ join [32, 36, 32] (e :: y :: l) ++ post = (pre ++ e ++ [32]) ++ 36 :: ([32] ++ join [32, 36, 32] (y :: l) ++ post) := by
        simp [join]
      rw [this, splitDollar_append (by simp [nd pre h1, he.dollar]), List.map_cons,
        ih (fun e he => h e (by simp [he])) (by simp) [32] post (by decide) h2, strip_pad he.strip he.some h1 (by decide)]

theorem mem_join_dollar {l : List Bytes} (h : ∀ e ∈ l, OidOk e) : (41 : UInt8) ∉ join [32, 36, 32] l := by
  induction l with
  | nil => simp [join]
  | cons e l ih =>
    have h1 := (h e (by simp)).paren
    have h2 := ih fun e he => h e (by simp [he])
    cases l with
    | nil => simpa [join] using h1
    | cons y l => simp [join, h1, h2]

theorem toList_join {l : List Bytes} (h : ∀ e ∈ l, OidOk e) (hl : l ≠ []) : toList (lstrip (join [32, 36, 32] l ++ [32])) = .ok l := by
  have e : lstrip (join [32, 36, 32] l ++ [32]) = [] ++ join [32, 36, 32] l ++ [32] := by
    cases l with
    | nil => exact absurd rfl hl
    | cons e l =>
      have he := h e (by simp)
      have := strip_fixed he.strip he.some
      cases l with
      | nil => exact lstrip_append_spaces this.1 he.some
      | cons y l =>
        simp only [join, List.append_assoc, List.nil_append]
        exact lstrip_append_spaces this.1 he.some
  unfold toList
  rw [e, split_join h hl [] [32] (by simp) (by decide), if_pos]
  simp only [List.all_eq_true, decide_eq_true_eq]
  exact fun e he => (h e he).some

/-- A list of names that can be printed, with these items to follow. -/
def OidsOk (l : List Bytes) (rest : List Bytes) : Prop :=
  (l.length > 1 ∧ ∀ e ∈ l, OidOk e) ∨ (∃ w, l = [w] ∧ Word w ∧ w.head? ≠ some 40) ∨ (l = [[]] ∧ rest = [])

theorem oids_step {l rest ks : List Bytes} (hs : Sep sep) (hr : Heads ks rest) (h : OidsOk l rest) :
    ∃ T', oids (listText l ++ more sep rest) = .ok ((decide (l.length > 1), l), T') ∧ lstrip T' = after sep rest := by
  rcases h with ⟨h1, h2⟩ | ⟨w, rfl, h1, h2⟩ | ⟨rfl, rfl⟩
  · have hne : l ≠ [] := by rintro rfl; simp at h1
    obtain ⟨t, e1, e2⟩ := cut_paren (mem_join_dollar h2) (more sep rest)
    refine ⟨more sep rest, ?_, hr.lstrip_more hs⟩
    unfold oids listText
    rw [if_pos h1, e1, lstrip_cons (by decide)]
    simp only [e2, toList_join h2 hne, bind, Except.bind, pure, Except.pure, h1, decide_true]
  · refine ⟨after sep rest, ?_, hr.after_fixed⟩
    have e : listText [w] = w := by simp [listText, join]
    rw [e]
    unfold oids
    rw [lstrip_word h1]
    cases w with
    | nil => exact absurd rfl h1.1
    | cons b w =>
      have hb : b ≠ 40 := by rintro rfl; exact h2 rfl
      have := extractWord_append h1 (more_gap hs rest)
      rw [hr.lstrip_more hs] at this
      split
      · rename_i e'
        simp only [List.cons_append, List.cons.injEq] at e'
        exact absurd e'.1 hb
      · simp only [this, bind, Except.bind, pure, Except.pure]; rfl
  · exact ⟨[], by show oids [32] = _; decide, by show lstrip [] = []; decide⟩

/-! The outside. -/

theorem oid_word {oid : Bytes} (h : oidOk oid = true) : Word oid := by
  simp only [oidOk, Bool.and_eq_true, List.all_eq_true, Bool.or_eq_true, decide_eq_true_eq] at h
  refine ⟨h.1, fun b hb => ?_⟩
  rcases h.2 b hb with rfl | ⟨h1, h2⟩
  · decide
  · have h1 : 48 ≤ b.toNat := by simpa [UInt8.le_iff_toNat_le] using h1
    have e1 : b ≠ 32 := by rintro rfl; revert h1; decide
    have e2 : ¬ b ≤ 13 := by
      rw [UInt8.le_iff_toNat_le]
      show ¬ b.toNat ≤ 13
      omega
    simp [isSpace, e1, e2]

theorem opening_step {oid g : Bytes} (ho : Word oid) (hg : Gap g) : opening ([40, 32] ++ oid ++ g ++ [41]) = .ok (oid, lstrip g) := by
  unfold opening
  rw [if_neg (by simp), if_neg (by rw [List.getLast?_append]; simp)]
  have : ((([40, 32] ++ oid ++ g ++ [41]).drop 1).dropLast) = 32 :: (oid ++ g) := by
    have : ([40, 32] ++ oid ++ g ++ [41]).drop 1 = (32 :: (oid ++ g)) ++ [41] := by simp
    rw [this, List.dropLast_concat]
  rw [this, lstrip_cons_space (by decide), lstrip_word ho, extractWord_append ho hg]

/-- Items on lines of their own. -/
theorem opening_lines {oid : Bytes} {ks l : List Bytes} (ho : Word oid) (hl : Heads ks l) (hs : Sep sep) :
    opening ([40, 32] ++ oid ++ [32] ++ join sep l ++ [32, 41]) = .ok (oid, after sep l) := by
  have e : [40, 32] ++ oid ++ [32] ++ join sep l ++ [32, 41] = [40, 32] ++ oid ++ ([32] ++ join sep l ++ [32]) ++ [41] := by simp
  rw [e, opening_step (g := [32] ++ join sep l ++ [32]) ho (.inr ⟨32, _, rfl, by decide⟩)]
  congr 2
  cases l with
  | nil => show lstrip ([32] ++ [] ++ [32]) = []; decide
  | cons x l =>
    rw [List.append_assoc, lstrip_spaces (by decide)]
    exact hl.after_fixed

/-- Items on the same line. -/
theorem opening_words {oid : Bytes} {ks l : List Bytes} (ho : Word oid) (hl : Heads ks l) :
    opening ([40, 32] ++ join [32] ([oid] ++ l) ++ [32, 41]) = .ok (oid, after [32] l) := by
  have e : [40, 32] ++ join [32] ([oid] ++ l) ++ [32, 41] = [40, 32] ++ oid ++ more [32] l ++ [41] := by
    cases l with
    | nil => simp [join, more]
    | cons x l => simp [join, more, after]
  rw [e, opening_step ho (more_gap space_sep l), hl.lstrip_more space_sep]

/-! Extensions. -/

/-- An extension that can be printed. -/
structure ExtOk (x : Bytes × (Bytes ⊕ List Bytes)) : Prop where
  word : Word x.1
  pre : x.1.take 2 = kw "X-"
  str : ∀ s, x.2 = .inl s → (39 : UInt8) ∉ s
  strs : ∀ l, x.2 = .inr l → ∀ s ∈ l, (39 : UInt8) ∉ s ∧ (41 : UInt8) ∉ s

theorem heads_ext {l : List (Bytes × (Bytes ⊕ List Bytes))} (h : ∀ x ∈ l, ExtOk x) : Heads (l.map (·.1)) (l.map extensionText) := by
  intro y hy
  obtain ⟨⟨w, v⟩, hx, rfl⟩ := List.mem_map.mp hy
  refine ⟨w, (extensionText (w, v)).drop w.length, ?_, (h _ hx).word, ?_, List.mem_map.mpr ⟨_, hx, rfl⟩⟩
  · cases v <;> simp [extensionText]
  · cases v <;> exact .inr ⟨32, _, by simp [extensionText]; rfl, by decide⟩

theorem extension_step {v : Bytes ⊕ List Bytes} {w : Bytes} (h : ExtOk (w, v)) (m : Bytes) :
    extension ((extensionText (w, v) ++ m).drop (w.length + 1)) = .ok (v, m) := by
  cases v with
  | inl s =>
    have e : (extensionText (w, .inl s) ++ m).drop (w.length + 1) = 39 :: (s ++ 39 :: m) := by
      simp [extensionText, quoted, List.drop_append]
    unfold extension
    rw [e, lstrip_cons (by decide)]
    simp only [cut_append (h.str s rfl), bind, Except.bind, pure, Except.pure]
  | inr l =>
    have e : (extensionText (w, .inr l) ++ m).drop (w.length + 1) = paren (join [32] (l.map quoted)) ++ m := by
      simp [extensionText, List.drop_append]
    obtain ⟨t, s, e1, e2, e3⟩ := paren_strings (fun s hs => (h.strs l rfl s hs).1) (fun s hs => (h.strs l rfl s hs).2) m
    unfold extension
    rw [e, e1, lstrip_cons (by decide)]
    simp only [e2, e3, bind, Except.bind, pure, Except.pure]

theorem extension_loop {l : List (Bytes × (Bytes ⊕ List Bytes))} (hs : Sep sep) (h : ∀ x ∈ l, ExtOk x) : ∀ (fuel : Nat) (T : Bytes),
    lstrip T = after sep (l.map extensionText) → l.length < fuel → extensionLoop fuel T = .ok l := by
  induction l with
  | nil =>
    intro fuel T hT hf
    cases fuel with
    | zero => omega
    | succ fuel =>
      have hT : lstrip T = [] := hT
      simp [extensionLoop, hT, peekWord, bind, Except.bind]
  | cons x l ih =>
    intro fuel T hT hf
    cases fuel with
    | zero => omega
    | succ fuel =>
      obtain ⟨w, v⟩ := x
      have hx := h (w, v) (by simp)
      have hh := heads_ext fun x hx => h x (List.mem_cons_of_mem _ hx)
      rw [List.map_cons, after_cons] at hT
      have hg : ∃ g, Gap g ∧ extensionText (w, v) = w ++ g := by
        cases v <;> exact ⟨32 :: _, .inr ⟨32, _, rfl, by decide⟩, by simp [extensionText]; rfl⟩
      obtain ⟨g, hg, eg⟩ := hg
      have hp : peekWord (lstrip T) = .ok (some w) := by
        rw [hT, eg, List.append_assoc]
        exact peekWord_append hx.word (gap_append hg hs _)
      have hrest := ih (fun x hx => h x (List.mem_cons_of_mem _ hx)) fuel (more sep (l.map extensionText)) (hh.lstrip_more hs)
        (by simp at hf; omega)
      have hpre := hx.pre
      simp only at hpre
      simp only [extensionLoop, hp, bind, Except.bind, pure, Except.pure]
      rw [if_pos hpre, hT]
      simp only [extension_step hx, hrest]

theorem not_ext {k : Bytes} {ks : List Bytes} {l : List (Bytes × (Bytes ⊕ List Bytes))} (h : ∀ x ∈ l, ExtOk x) (h1 : k.take 2 ≠ kw "X-")
    (h2 : k ∉ ks) : k ∉ ks ++ l.map (·.1) := by
  rw [List.mem_append, not_or]
  refine ⟨h2, fun hm => ?_⟩
  obtain ⟨x, hx, rfl⟩ := List.mem_map.mp hm
  exact h1 (h x hx).pre

/-! What the parser accepts can be printed. -/

theorem stringsLoop_ok {fuel : Nat} {t : Bytes} {l : List Bytes} (h : stringsLoop fuel t = .ok l) :
    (∀ s ∈ l, (39 : UInt8) ∉ s) ∧ ∀ c, c ∉ t → ∀ s ∈ l, c ∉ s := by
  induction fuel generalizing t l with
  | zero => cases h
  | succ fuel ih =>
    have hsub : ∀ c, c ∉ t → c ∉ lstrip t := fun c hc hm => hc ((List.dropWhile_sublist _).subset hm)
    unfold stringsLoop at h
    split at h
    · cases h; simp
    · rename_i b r hr
      split at h
      · cases h
      · cases hc : cut 39 r with
        | error e => simp [hc, bind, Except.bind] at h
        | ok p =>
          obtain ⟨s, u⟩ := p
          cases hl : stringsLoop fuel u with
          | error e => simp [hc, hl, bind, Except.bind] at h
          | ok l' =>
            simp only [hc, hl, bind, Except.bind, pure, Except.pure, Except.ok.injEq] at h
            obtain ⟨i1, i2⟩ := ih hl
            obtain ⟨c1, c2⟩ := cut_ok hc
            rw [← h]
            constructor
            · intro x hx
              rcases List.mem_cons.mp hx with rfl | hx
              · exact c2
              · exact i1 x hx
            · intro c hct x hx
              have := hsub c hct
              rw [hr, c1] at this
              simp only [List.mem_cons, List.mem_append, not_or] at this
              rcases List.mem_cons.mp hx with rfl | hx
              · exact this.2.1
              · exact i2 c this.2.2.2 x hx

theorem oneString_ok {t s r : Bytes} (h : oneString t = .ok (s, r)) : (39 : UInt8) ∉ s := by
  unfold oneString at h
  split at h
  · exact (cut_ok h).2
  · cases h

theorem names_ok {t r : Bytes} {l : List Bytes} (h : names t = .ok (l, r)) :
    (∀ s ∈ l, (39 : UInt8) ∉ s) ∧ (l.length > 1 → ∀ s ∈ l, (41 : UInt8) ∉ s) := by
  unfold names at h
  split at h
  · rename_i t' _
    cases hc : cut 39 t' with
    | error e => simp [hc, bind, Except.bind] at h
    | ok p =>
      simp only [hc, bind, Except.bind, pure, Except.pure, Except.ok.injEq, Prod.mk.injEq] at h
      rw [← h.1]
      refine ⟨?_, fun hl => ?_⟩
      · intro s hs
        rw [List.mem_singleton.mp hs]
        exact (cut_ok hc).2
      · simp at hl
  · rename_i t' _
    cases hc : cut 41 (lstrip t') with
    | error e => simp [hc, bind, Except.bind] at h
    | ok p =>
      obtain ⟨s, u⟩ := p
      cases hl : stringsToList s with
      | error e => simp [hc, hl, bind, Except.bind] at h
      | ok l' =>
        simp only [hc, hl, bind, Except.bind, pure, Except.pure, Except.ok.injEq, Prod.mk.injEq] at h
        obtain ⟨h1, h2⟩ := stringsLoop_ok hl
        rw [← h.1]
        exact ⟨h1, fun _ => h2 41 (cut_ok hc).2⟩
  · cases h

theorem word_ok {t : Bytes} (h : lstrip t ≠ []) : Word (word t) := by
  constructor
  · rcases lstrip_head t with h' | ⟨b, r, h', hb⟩
    · exact absurd h' h
    · simp [word, h', hb]
  · intro b hb
    have := List.all_eq_true.mp (List.all_takeWhile (p := fun c => !isSpace c) (l := lstrip t)) b hb
    simpa using this

theorem oneWord_ok {t w r : Bytes} (h : oneWord t = .ok (w, r)) : Word w ∨ (w = [] ∧ r = []) := by
  unfold oneWord extractWord at h
  split at h
  · cases h; exact .inr ⟨rfl, rfl⟩
  · split at h
    · cases h
    · rename_i h1 h2
      simp only [Except.ok.injEq, Prod.mk.injEq] at h
      rw [← h.1]
      exact .inl (word_ok h2)

theorem extension_ok {t r : Bytes} {v : Bytes ⊕ List Bytes} (h : extension t = .ok (v, r)) :
    (∀ s, v = .inl s → (39 : UInt8) ∉ s) ∧ ∀ l, v = .inr l → ∀ s ∈ l, (39 : UInt8) ∉ s ∧ (41 : UInt8) ∉ s := by
  unfold extension at h
  split at h
  · rename_i t' _
    cases hc : cut 39 t' with
    | error e => simp [hc, bind, Except.bind] at h
    | ok p =>
      simp only [hc, bind, Except.bind, pure, Except.pure, Except.ok.injEq, Prod.mk.injEq] at h
      rw [← h.1]
      refine ⟨fun s e => ?_, fun l e => by cases e⟩
      cases e
      exact (cut_ok hc).2
  · rename_i t' _
    cases hc : cut 41 (lstrip t') with
    | error e => simp [hc, bind, Except.bind] at h
    | ok p =>
      obtain ⟨s, u⟩ := p
      cases hl : stringsToList s with
      | error e => simp [hc, hl, bind, Except.bind] at h
      | ok l' =>
        simp only [hc, hl, bind, Except.bind, pure, Except.pure, Except.ok.injEq, Prod.mk.injEq] at h
        obtain ⟨h1, h2⟩ := stringsLoop_ok hl
        rw [← h.1]
        refine ⟨fun s e => (nomatch e), fun l e => ?_⟩
        cases e
        exact fun s hs => ⟨h1 s hs, h2 41 (cut_ok hc).2 s hs⟩
  · cases h

theorem extensionLoop_ok {fuel : Nat} {t : Bytes} {l : List (Bytes × (Bytes ⊕ List Bytes))} (h : extensionLoop fuel t = .ok l) :
    ∀ x ∈ l, ExtOk x := by
  induction fuel generalizing t l with
  | zero => cases h
  | succ fuel ih =>
    unfold extensionLoop at h
    by_cases hn : lstrip t = []
    · simp [peekWord, hn, bind, Except.bind] at h
      subst h
      simp
    · have hp : peekWord (lstrip t) = .ok (some (word t)) := by
        unfold peekWord
        rw [if_neg hn, lstrip_idem, if_neg hn]
        unfold word
        rw [lstrip_idem]
      simp only [hp, bind, Except.bind, pure, Except.pure] at h
      split at h
      · rename_i hx
        cases he : extension ((lstrip t).drop ((word t).length + 1)) with
        | error e => simp [he] at h
        | ok p =>
          obtain ⟨v, r⟩ := p
          cases hl : extensionLoop fuel r with
          | error e => simp [he, hl] at h
          | ok l' =>
            simp only [he, hl, Except.ok.injEq] at h
            rw [← h]
            intro x hm
            rcases List.mem_cons.mp hm with rfl | hm
            · obtain ⟨e1, e2⟩ := extension_ok he
              exact ⟨word_ok hn, hx, e1, e2⟩
            · exact ih hl x hm
      · cases h

/-- The text is used up. -/
def Ends (t : Bytes) : Prop := lstrip t = []

theorem clause_ends {α : Type} {k t t' : Bytes} {f : Bytes → Py (α × Bytes)} {x : Option α} (h : clause k f t = .ok (x, t')) (ht : Ends t) :
    x = none ∧ Ends t' := by
  unfold clause at h
  rw [show lstrip t = [] from ht] at h
  simp [peekWord, bind, Except.bind, pure, Except.pure] at h
  exact ⟨h.1.symm, by rw [h.2]; rfl⟩

theorem clause_ok {α : Type} {k t t' : Bytes} {f : Bytes → Py (α × Bytes)} {x : α} (h : clause k f t = .ok (some x, t')) :
    ∃ u, f u = .ok (x, t') := by
  unfold clause at h
  cases hp : peekWord (lstrip t) with
  | error e => simp [hp, bind, Except.bind] at h
  | ok p =>
    simp only [hp, bind, Except.bind, pure, Except.pure] at h
    split at h
    · refine ⟨(lstrip t).drop (k.length + 1), ?_⟩
      cases hf : f ((lstrip t).drop (k.length + 1)) with
      | error e => simp [hf] at h
      | ok q =>
        simp only [hf, Except.ok.injEq, Prod.mk.injEq, Option.some.injEq] at h
        rw [← h.1, ← h.2]
    · simp at h

end Verif.Schema
