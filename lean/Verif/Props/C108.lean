import Verif.Spec.Pwgen
/-
C108  The password generator gives as many passwords as were asked for, or fails.

Full statement: whatever pwgen prints, in whatever pieces it arrives, the caller is told exactly once: the passwords, if
standard error is empty and there are as many lines as were asked for, else a failure; and no method raises.

Proved for text, except that a wrong number of lines also raises (`told_partial`, `wrong_count_raises`).  Twisted delivers
octets, and then the caller is always told of a failure (`octets_never`).

In passwd.py each DN gets its password, is refused by the directory, or has none generated (`tool_ends`).  The exit status
tells of the second only (`status_iff`): with `--generate` the tool changes nothing and reports success (`generate_nothing`).
-/
namespace Verif.C108
open Verif.Pwgen Verif.Spec.Pwgen

theorem fold_text (es : List Event) (s : St) : (es.foldl step s).stdout = s.stdout ++ output es ∧
    (es.foldl step s).stderr = s.stderr ++ complaints es ∧ (es.foldl step s).fired = s.fired := by
  induction es generalizing s with
  | nil => simp [output, complaints]
  | cons e es ih =>
    obtain ⟨h1, h2, h3⟩ := ih (step s e)
    simp only [List.foldl_cons, h1, h2, h3]
    rcases e with (t | b) | (t | b) <;> simp [step, outReceived, errReceived, output, complaints]

theorem fold_raised (es : List Event) (s : St) (h : ∀ e ∈ es, ∃ t, e = .out (.text t) ∨ e = .err (.text t)) :
    (es.foldl step s).raised = s.raised := by
  induction es generalizing s with
  | nil => rfl
  | cons e es ih =>
    rw [List.foldl_cons, ih _ (fun x hx => h x (List.mem_cons_of_mem _ hx))]
    obtain ⟨t, rfl | rfl⟩ := h e List.mem_cons_self <;> rfl

theorem splitLines_ne (s : Str) : splitLines s ≠ [] := by
  cases s with
  | nil => simp [splitLines]
  | cons c s =>
    simp only [splitLines]
    split
    · simp
    · split <;> simp

theorem splitLines_line {l : Str} (h : '\n' ∉ l) (s : Str) : splitLines (l ++ '\n' :: s) = l :: splitLines s := by
  induction l with
  | nil => simp [splitLines]
  | cons c l ih =>
    simp only [List.mem_cons, not_or] at h
    simp only [List.cons_append, splitLines, if_neg (Ne.symm h.1), ih h.2]

theorem splitLines_last {l : Str} (h : '\n' ∉ l) : splitLines l = [l] := by
  induction l with
  | nil => simp [splitLines]
  | cons c l ih =>
    simp only [List.mem_cons, not_or] at h
    simp only [splitLines, if_neg (Ne.symm h.1), ih h.2]

theorem lines_of {s : Str} {ls : List Str} (h : Lines s ls) : (splitLines s).filter (fun l => l ≠ []) = ls := by
  induction h with
  | nil => simp [splitLines]
  | last h1 h2 => rw [splitLines_last h2]; simp [h1]
  | blank _ ih => simpa [splitLines] using ih
  | line h1 h2 _ ih => rw [splitLines_line h2, List.filter_cons]; simpa [h1] using ih

theorem first_line (s : Str) (h : '\n' ∈ s) : ∃ a b, s = a ++ '\n' :: b ∧ '\n' ∉ a := by
  induction s with
  | nil => simp at h
  | cons c s ih =>
    by_cases hc : c = '\n'
    · exact ⟨[], s, by simp [hc], by simp⟩
    · obtain ⟨a, b, e, ha⟩ := ih (by simpa [Ne.symm hc] using h)
      exact ⟨c :: a, b, by simp [e], by simp [Ne.symm hc, ha]⟩

theorem lines_exist (s : Str) : ∃ ls, Lines s ls := by
  generalize hn : s.length = n
  induction n using Nat.strongRecOn generalizing s with
  | _ n ih =>
    by_cases h : '\n' ∈ s
    · obtain ⟨a, b, rfl, ha⟩ := first_line s h
      obtain ⟨ls, hl⟩ := ih b.length (by rw [← hn]; simp; omega) b rfl
      by_cases he : a = []
      · subst he; exact ⟨ls, .blank hl⟩
      · exact ⟨a :: ls, .line he ha hl⟩
    · by_cases he : s = []
      · subst he; exact ⟨[], .nil⟩
      · exact ⟨[s], .last he h⟩

theorem lines_unique {s : Str} {a b : List Str} (h : Lines s a) (h' : Lines s b) : a = b := by rw [← lines_of h, ← lines_of h']

theorem lines_iff (s : Str) (ls : List Str) : Lines s ls ↔ (splitLines s).filter (fun l => l ≠ []) = ls := by
  refine ⟨lines_of, fun h => ?_⟩
  obtain ⟨ls', h'⟩ := lines_exist s
  rw [← h, lines_of h']; exact h'

/-- The caller is told once the process has ended: the passwords exactly if there is no complaint and there are as many lines
as were asked for, whatever pieces they came in, and else a failure. -/
theorem told_partial (count : Nat) (es : List Event) (ls : List Str) (hl : Lines (output es) ls) :
    (run count es).fired = some (if complaints es ≠ [] then .failure (complaints es)
      else if output es = [] then .failure []
      else if ls.length = count then .passwords ls else .failure "Wrong number of lines received.".toList) := by
  obtain ⟨h1, h2, h3⟩ := fold_text es start
  simp only [start, List.nil_append] at h1 h2 h3
  simp only [run, start] at *
  generalize es.foldl step _ = s at *
  unfold processEnded
  rw [h2]
  have := lines_of hl
  by_cases hcm : complaints es = []
  · simp only [hcm, h1, ne_eq, not_true_eq_false, if_false]
    by_cases ho : output es = []
    · simp [ho, fire, h3]
    · simp only [ne_eq] at this
      simp only [ho, not_false_eq_true, if_true, if_false, this]
      by_cases hn : ls.length = count
      · simp [hn, fire, h3]
      · simp only [hn, not_false_eq_true, if_true, if_false]
        generalize "Wrong number of lines received.".toList = w
        simp [fire, h3]
  · rw [if_pos hcm, if_pos hcm]; simp [fire, h3]

/-- Passwords that are given are lines that were printed, as many as were asked for, none of them empty. -/
theorem passwords_right (count : Nat) (es : List Event) (ls : List Str) (h : (run count es).fired = some (.passwords ls)) :
    ls.length = count ∧ Lines (output es) ls ∧ complaints es = [] ∧ ∀ l ∈ ls, l ≠ [] ∧ '\n' ∉ l := by
  obtain ⟨ls', hl⟩ := lines_exist (output es)
  rw [told_partial count es ls' hl] at h
  split at h
  · simp at h
  · split at h
    · simp at h
    · split at h
      · rename_i h1 h2 h3
        simp only [Option.some.injEq, Result.passwords.injEq] at h
        subst h
        refine ⟨h3, hl, by simpa using h1, ?_⟩
        clear h3 h1 h2
        generalize output es = o at hl
        induction hl with
        | nil => simp
        | last a b => simp [a, b]
        | blank _ ih => exact ih
        | line a b _ ih =>
          intro x hx
          rcases List.mem_cons.mp hx with rfl | hx
          · exact ⟨a, b⟩
          · exact ih x hx
      · simp at h

/-- Only what was printed matters, and not in which pieces it came. -/
theorem pieces (count : Nat) (es es' : List Event) (ho : output es = output es') (hm : complaints es = complaints es') :
    (run count es).fired = (run count es').fired := by
  obtain ⟨ls, hl⟩ := lines_exist (output es)
  rw [told_partial count es ls hl, told_partial count es' ls (ho ▸ hl), ho, hm]

/-- For text, a method raises exactly if the number of lines is wrong: the caller is told of the failure, and then told again. -/
theorem wrong_count_raises (count : Nat) (es : List Event) (h : ∀ e ∈ es, ∃ t, e = .out (.text t) ∨ e = .err (.text t))
    (ls : List Str) (hl : Lines (output es) ls) :
    (run count es).raised = if complaints es = [] ∧ output es ≠ [] ∧ ls.length ≠ count then [.alreadyCalled] else [] := by
  obtain ⟨h1, h2, h3⟩ := fold_text es start
  have h4 := fold_raised es start h
  simp only [start, List.nil_append] at h1 h2 h3 h4
  simp only [run, start] at *
  generalize es.foldl step _ = s at *
  unfold processEnded
  rw [h2]
  have := lines_of hl
  by_cases hcm : complaints es = []
  · rw [if_neg (by simp [hcm]), h1]
    by_cases ho : output es = []
    · rw [if_neg (by simp [ho]), if_neg (by simp [ho])]; simp [fire, h3, h4]
    · rw [if_pos ho]
      simp only [this]
      by_cases hn : ls.length = count
      · simp [hn, fire, h3, h4]
      · generalize "Wrong number of lines received.".toList = w
        simp [hn, hcm, ho, fire, h3, h4]
  · rw [if_pos hcm, if_neg (by simp [hcm])]; simp [fire, h3, h4]

/-- Octets, which is what Twisted delivers, are lost: the caller is told of a failure without a text whatever pwgen prints, and
every piece raises. -/
theorem octets_never (count : Nat) (es : List Event) (h : ∀ e ∈ es, ∃ b, e = .out (.bytes b) ∨ e = .err (.bytes b)) :
    run count es = ⟨[], [], some (.failure []), es.map fun _ => .typeError⟩ := by
  have key : ∀ (es : List Event) (s : St), (∀ e ∈ es, ∃ b, e = .out (.bytes b) ∨ e = .err (.bytes b)) →
      es.foldl step s = { s with raised := s.raised ++ es.map fun _ => .typeError } := by
    intro es
    induction es with
    | nil => intro s _; simp
    | cons e es ih =>
      intro s h
      rw [List.foldl_cons, ih _ (fun x hx => h x (List.mem_cons_of_mem _ hx))]
      obtain ⟨b, rfl | rfl⟩ := h e List.mem_cons_self <;> simp [step, outReceived, errReceived]
  rw [run, key es start h]
  simp [processEnded, start, fire]

/-! ### The tool -/

/-- Every DN comes to an end: its password is changed, refused, or not generated; one that is set is one line of what pwgen
printed for this DN, or what was typed. -/
theorem tool_ends (generate : Bool) (accepts : Str → Str → Bool) (dn typed : Str) (es : List Event) :
    (∃ p, change accepts dn (getPassword generate typed es) = .changed p ∧ accepts dn p = true ∧
      ((generate = false ∧ p = typed) ∨ (generate = true ∧ Lines (output es) [p]))) ∨
    (∃ p, change accepts dn (getPassword generate typed es) = .refused ∧ accepts dn p = false ∧
      ((generate = false ∧ p = typed) ∨ (generate = true ∧ Lines (output es) [p]))) ∨
    (generate = true ∧ change accepts dn (getPassword generate typed es) = .pwgenFailed ∧ ∀ p, (run 1 es).fired ≠ some (.passwords [p])) := by
  cases generate with
  | false =>
    simp only [getPassword, Bool.false_eq_true, if_false, change]
    by_cases h : accepts dn typed = true
    · exact .inl ⟨typed, by simp [h], h, .inl ⟨trivial, rfl⟩⟩
    · exact .inr (.inl ⟨typed, by simp [h], by simpa using h, .inl ⟨trivial, rfl⟩⟩)
  | true =>
    simp only [getPassword, if_true]
    obtain ⟨ls, hl⟩ := lines_exist (output es)
    cases hf : (run 1 es).fired with
    | none => rw [told_partial 1 es ls hl] at hf; cases hf
    | some r =>
      cases r with
      | failure t => exact .inr (.inr ⟨trivial, rfl, by simp⟩)
      | passwords ws =>
        obtain ⟨h1, h2, _⟩ := passwords_right 1 es ws hf
        match ws, h1 with
        | [p], _ =>
          simp only [change]
          by_cases h : accepts dn p = true
          · exact .inl ⟨p, by simp [h], h, .inr ⟨trivial, h2⟩⟩
          · exact .inr (.inl ⟨p, by simp [h], by simpa using h, .inr ⟨trivial, h2⟩⟩)

/-- The exit status is 1 exactly if the directory refused a password. -/
theorem status_iff (generate : Bool) (accepts : Str → Str → Bool) (dns : List (Str × Str × List Event)) :
    exitStatus (changeAll generate accepts dns) = 1 ↔ ∃ d ∈ dns, ∃ p, getPassword generate d.2.1 d.2.2 = some (.passwords [p]) ∧ accepts d.1 p = false := by
  have key : ∀ d : Str × Str × List Event, change accepts d.1 (getPassword generate d.2.1 d.2.2) = .refused ↔
      ∃ p, getPassword generate d.2.1 d.2.2 = some (.passwords [p]) ∧ accepts d.1 p = false := by
    intro d
    generalize getPassword generate d.2.1 d.2.2 = r
    unfold change
    match r with
    | none => simp
    | some (.failure t) => simp
    | some (.passwords []) => simp
    | some (.passwords [p]) => cases h : accepts d.1 p <;> simp [h]
    | some (.passwords (a :: b :: c)) => simp
  unfold exitStatus changeAll
  simp only [← key]
  by_cases h : ((dns.map fun d => change accepts d.1 (getPassword generate d.2.1 d.2.2)).any (· == .refused)) = true
  · rw [if_pos h]
    simp only [true_iff]
    simpa using h
  · rw [if_neg h]
    refine iff_of_false (by decide) ?_
    simpa using h

/-- What is shown are the passwords that were changed, and only those that were generated. -/
theorem shown_iff (generate : Bool) (accepts : Str → Str → Bool) (dns : List (Str × Str × List Event)) (dn w : Str) :
    (dn, w) ∈ shown generate dns (changeAll generate accepts dns) ↔
      generate = true ∧ ∃ d ∈ dns, d.1 = dn ∧ (run 1 d.2.2).fired = some (.passwords [w]) ∧ accepts dn w = true := by
  cases generate with
  | false => simp [shown]
  | true =>
    simp only [shown, if_true, true_and, changeAll]
    induction dns with
    | nil => simp
    | cons d dns ih =>
      simp only [List.map_cons, List.zip_cons_cons, List.filterMap_cons, List.mem_cons, exists_eq_or_imp, ← ih]
      generalize hr : (run 1 d.2.2).fired = r
      simp only [getPassword, if_true, hr]
      unfold change
      match r with
      | none => simp
      | some (.failure t) => simp
      | some (.passwords []) => simp
      | some (.passwords [p]) =>
        cases h : accepts d.1 p
        · simp only [h, Bool.false_eq_true, if_false]
          constructor
          · exact .inr
          · rintro (⟨rfl, h1, h2⟩ | h1)
            · simp only [Option.some.injEq, Result.passwords.injEq, List.cons.injEq, and_true] at h1
              subst h1; rw [h] at h2; cases h2
            · exact h1
        · simp only [h, if_true, List.mem_cons, Prod.mk.injEq]
          constructor
          · rintro (⟨rfl, rfl⟩ | h1)
            · exact .inl ⟨rfl, rfl, h⟩
            · exact .inr h1
          · rintro (⟨rfl, h1, _⟩ | h1)
            · simp only [Option.some.injEq, Result.passwords.injEq, List.cons.injEq, and_true] at h1
              exact .inl ⟨rfl, h1.symm⟩
            · exact .inr h1
      | some (.passwords (a :: b :: c)) => simp

/-- With octets, `--generate` changes no password, shows none, and exits with status 0, whatever the directory accepts. -/
theorem generate_nothing (accepts : Str → Str → Bool) (dns : List (Str × Str × List Event))
    (h : ∀ d ∈ dns, ∀ e ∈ d.2.2, ∃ b, e = .out (.bytes b) ∨ e = .err (.bytes b)) :
    changeAll true accepts dns = dns.map (fun _ => .pwgenFailed) ∧ exitStatus (changeAll true accepts dns) = 0 ∧
    shown true dns (changeAll true accepts dns) = [] := by
  have e : changeAll true accepts dns = dns.map (fun _ => .pwgenFailed) := by
    unfold changeAll
    refine List.map_congr_left fun d hd => ?_
    simp [getPassword, octets_never 1 d.2.2 (h d hd), change]
  refine ⟨e, ?_, ?_⟩
  · rw [e]; simp [exitStatus]
  · rw [List.eq_nil_iff_forall_not_mem]
    rintro ⟨dn, w⟩ hm
    obtain ⟨_, d, hd, _, hf, _⟩ := (shown_iff ..).mp hm
    rw [octets_never 1 d.2.2 (h d hd)] at hf
    simp at hf

/-! ### Examples -/

example : changeAll true (fun d _ => d == "cn=a".toList) [("cn=a".toList, [], [.out (.text "pw\n".toList)]), ("cn=b".toList, [], [.out (.text "pw".toList)]),
    ("cn=c".toList, [], [])] = [.changed "pw".toList, .refused, .pwgenFailed] := by decide +kernel

example : run 2 [.out (.text "ab".toList), .out (.text "c\n\nde".toList)] =
    ⟨"abc\n\nde".toList, [], some (.passwords ["abc".toList, "de".toList]), []⟩ := by decide +kernel

example : Lines "abc\n\nde".toList ["abc".toList, "de".toList] := by rw [lines_iff]; decide +kernel

example : (run 1 [.out (.text "a\nb\n".toList)]).fired = some (.failure "Wrong number of lines received.".toList) ∧
    (run 1 [.out (.text "a\nb\n".toList)]).raised = [.alreadyCalled] := by decide +kernel

example : (run 1 [.out (.text "a\n".toList), .err (.text "no".toList)]).fired = some (.failure "no".toList) := by decide +kernel

example : run 1 [.out (.bytes [0x61, 0x0A])] = ⟨[], [], some (.failure []), [.typeError]⟩ := by decide +kernel

end Verif.C108
