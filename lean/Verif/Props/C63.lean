import Verif.Model.Dn
import Verif.Spec.DnGrammar
import Mathlib.Tactic.IntervalCases
/-
C63  Escaped values follow the grammar of RFC 4514 and mean the value they were made from.
-/
namespace Verif.C63
open Verif.Dn Verif.Spec.DnGrammar

/-- The token `escapeChar` writes for a character. -/
def tok (c : Char) : Token :=
  if c ∈ escapedChars then .pair c
  else if c.toNat ≤ 31 then .hex (hexUpper (c.toNat / 16)) (hexUpper (c.toNat % 16))
  else .raw c

theorem tok_render (c : Char) : (tok c).render = escapeChar c := by
  unfold tok escapeChar; split
  · rfl
  · split <;> rfl

theorem tok_value (c : Char) : (tok c).value = some c := by
  unfold tok; split
  · rfl
  · split
    · rename_i h
      have e : c = Char.ofNat c.toNat := by simp
      generalize c.toNat = n at h e
      subst e
      interval_cases n <;> decide
    · rfl

theorem tok_ok (c : Char) : (tok c).Ok := by
  unfold tok; split
  · rename_i h
    simp only [escapedChars, List.mem_cons, List.not_mem_nil, or_false] at h
    rcases h with h | h | h | h | h | h | h | h <;> subst h <;> simp [Token.Ok, escaped]
  · split
    · rename_i h
      simp only [Token.Ok]
      generalize c.toNat = n at h
      interval_cases n <;> decide
    · rename_i h1 h2
      simp only [escapedChars, List.mem_cons, List.not_mem_nil, or_false, not_or] at h1
      refine ⟨?_, ?_, h1.2.2.2.1⟩
      · rintro rfl; exact h2 (by decide)
      · simp only [escaped, List.mem_cons, List.not_mem_nil, or_false, not_or]; tauto

theorem tok_blank {c : Char} (h : tok c = .raw ' ') : c = ' ' := by
  have := tok_value c; rw [h] at this; simpa [Token.value] using this.symm

theorem tok_sharp {c : Char} (h : tok c = .raw '#') : c = '#' := by
  have := tok_value c; rw [h] at this; simpa [Token.value] using this.symm

/-- Tokens of what follows the leading character. -/
def restToks (s : Str) : List Token :=
  match s.getLast? with
  | some c => if c ∈ escapedTrailing then s.dropLast.map tok ++ [.pair c] else s.map tok
  | none => []

/-- Tokens of an escaped value. -/
def toks (s : Str) : List Token :=
  match s with
  | [] => []
  | c :: rest => if c ∈ escapedLeading then .pair c :: restToks rest else restToks (c :: rest)

theorem map_tok_render (s : Str) : (s.map tok).flatMap Token.render = s.flatMap escapeChar := by
  rw [List.flatMap_map]; simp only [tok_render]

theorem map_tok_value (s : Str) : (s.map tok).mapM Token.value = some s := by
  induction s with
  | nil => rfl
  | cons c s ih => simp [List.mapM_cons, tok_value, ih]

theorem restToks_render (s : Str) : (restToks s).flatMap Token.render = escapeRest s := by
  unfold restToks escapeRest
  cases hl : s.getLast? with
  | none => rfl
  | some c =>
    simp only
    split
    · rw [List.flatMap_append, map_tok_render]; simp [Token.render]
    · exact map_tok_render s

theorem restToks_value (s : Str) : (restToks s).mapM Token.value = some s := by
  unfold restToks
  cases hl : s.getLast? with
  | none => rw [List.getLast?_eq_none_iff] at hl; subst hl; rfl
  | some c =>
    simp only
    split
    · obtain ⟨ys, rfl⟩ := List.getLast?_eq_some_iff.mp hl
      rw [List.dropLast_concat, List.mapM_append, map_tok_value]; rfl
    · exact map_tok_value s

theorem restToks_ok (s : Str) : ∀ t ∈ restToks s, t.Ok := by
  unfold restToks
  cases hl : s.getLast? with
  | none => simp
  | some c =>
    simp only
    split
    · rename_i h
      intro t ht
      simp only [List.mem_append, List.mem_map, List.mem_singleton] at ht
      rcases ht with ⟨a, _, rfl⟩ | rfl
      · exact tok_ok a
      · simp only [escapedTrailing, List.mem_cons, List.not_mem_nil, or_false] at h
        rcases h with rfl | rfl <;> simp [Token.Ok]
    · intro t ht
      obtain ⟨a, _, rfl⟩ := List.mem_map.mp ht
      exact tok_ok a

theorem restToks_trail (s : Str) : (restToks s).getLast? ≠ some (.raw ' ') := by
  unfold restToks
  cases hl : s.getLast? with
  | none => simp
  | some c =>
    simp only
    split
    · simp
    · rename_i h
      obtain ⟨ys, rfl⟩ := List.getLast?_eq_some_iff.mp hl
      rw [List.map_append, List.map_cons, List.map_nil, List.getLast?_concat]
      intro e
      have := tok_blank (Option.some.inj e)
      subst this
      exact h (by decide)

theorem restToks_head {c : Char} {s : Str} (h : c ≠ ' ') (h' : c ≠ '#') :
    (restToks (c :: s)).head? ≠ some (.raw ' ') ∧ (restToks (c :: s)).head? ≠ some (.raw '#') := by
  have aux : ∀ t : Token, t = tok c ∨ (∃ x, t = .pair x) → t ≠ .raw ' ' ∧ t ≠ .raw '#' := by
    rintro t (rfl | ⟨x, rfl⟩)
    · exact ⟨fun e => h (tok_blank e), fun e => h' (tok_sharp e)⟩
    · simp
  have key : ∃ t, (restToks (c :: s)).head? = some t ∧ (t = tok c ∨ ∃ x, t = .pair x) := by
    unfold restToks
    cases hl : (c :: s).getLast? with
    | none => simp at hl
    | some d =>
      simp only
      split
      · cases s with
        | nil => exact ⟨.pair d, rfl, .inr ⟨d, rfl⟩⟩
        | cons e s => exact ⟨tok c, rfl, .inl rfl⟩
      · exact ⟨tok c, rfl, .inl rfl⟩
  obtain ⟨t, ht, hc⟩ := key
  rw [ht]
  have := aux t hc
  exact ⟨fun e => this.1 (Option.some.inj e), fun e => this.2 (Option.some.inj e)⟩

/-- What `escape` writes is a `string` of RFC 4514, and read by that grammar it stands for the value that was
escaped. -/
theorem escape_grammatical (s : Str) :
    ∃ ts, IsString ts ∧ ts.flatMap Token.render = escape s ∧ ts.mapM Token.value = some s := by
  refine ⟨toks s, ?_, ?_, ?_⟩
  · cases s with
    | nil => exact ⟨by simp [toks], by simp [toks], by simp [toks]⟩
    | cons c rest =>
      simp only [toks]
      split
      · rename_i h
        refine ⟨?_, by simp, ?_⟩
        · intro t ht
          rcases List.mem_cons.mp ht with rfl | ht
          · simp only [escapedLeading, List.mem_cons, List.not_mem_nil, or_false] at h
            rcases h with rfl | rfl <;> simp [Token.Ok]
          · exact restToks_ok rest t ht
        · cases hr : restToks rest with
          | nil => simp
          | cons t l =>
            rw [List.getLast?_cons_cons, ← hr]; exact restToks_trail rest
      · rename_i h
        simp only [escapedLeading, List.mem_cons, List.not_mem_nil, or_false, not_or] at h
        exact ⟨restToks_ok _, restToks_head h.1 h.2, restToks_trail _⟩
  · cases s with
    | nil => rfl
    | cons c rest =>
      simp only [toks, escape]
      split
      · simp [restToks_render, Token.render]
      · exact restToks_render _
  · cases s with
    | nil => rfl
    | cons c rest =>
      simp only [toks]
      split
      · simp [List.mapM_cons, restToks_value, Token.value]
      · exact restToks_value _

example : escape " a=#b\n ".toList = "\\ a\\=#b\\0A\\ ".toList := by decide +kernel

/-- In particular no escaped text ends in a blank that is not preceded by the escape character. -/
theorem no_bare_trailing_blank (s : Str) (t : Str) (h : escape s = t ++ [' ']) : t.getLast? = some '\\' := by
  obtain ⟨ts, hs, hr, _⟩ := escape_grammatical s
  rw [h] at hr
  rcases List.eq_nil_or_concat ts with rfl | ⟨l, x, rfl⟩
  · simp at hr
  · have ht := hs.trail
    have hx := hs.each x (by simp)
    rw [List.concat_eq_append] at hr ht
    rw [List.getLast?_concat] at ht
    simp only [List.flatMap_append, List.flatMap_cons, List.flatMap_nil, List.append_nil] at hr
    cases x with
    | raw c =>
      have := List.append_inj' hr rfl
      simp only [Token.render, List.cons.injEq, and_true] at this
      exact absurd (by rw [this.2]) ht
    | pair c =>
      have e : l.flatMap Token.render ++ ['\\', c] = (l.flatMap Token.render ++ ['\\']) ++ [c] := by simp
      simp only [Token.render] at hr
      rw [e] at hr
      have := (List.append_inj' hr rfl).1
      rw [← this]; simp
    | hex a b =>
      have e : l.flatMap Token.render ++ ['\\', a, b] = (l.flatMap Token.render ++ ['\\', a]) ++ [b] := by simp
      simp only [Token.render] at hr
      rw [e] at hr
      have := (List.append_inj' hr rfl).2
      simp only [List.cons.injEq, and_true] at this
      subst this
      simp only [Token.Ok] at hx
      exact absurd hx.2 (by decide)

example : escape "a ".toList = "a\\".toList ++ [' '] := by decide +kernel

end Verif.C63
