import Verif.Model.Passwd
import Verif.Spec.Passwd
import Mathlib.Data.List.Nodup
import Mathlib.Data.List.Forall2
/-
C107  The passwd exporter prints the accounts of the directory.

Full statement: what ldap2passwd prints, read as a passwd file, is the list of the accounts that were found.

Proved for entries made of text whose values have no separators (`read_back_partial`), with the exact condition for an entry
to be printed (`printed_iff`).  It does not hold for what the client finds: attribute types are octets there, so that the
first account ends the printing (`octets_fail`).  Attribute types in other letters are not found (`case_lost`), and values
are not checked, so that an account can add another (`injected`).
-/
namespace Verif.C107
open Verif.Passwd Verif.Spec.Passwd

/-! ### Entries -/

/-- The dictionary of an entry. -/
def shown (items : List (PyStr × List PyStr)) : List (Str × List Str) := items.map fun p => (Checker.formatted p.1, p.2.map Checker.formatted)

theorem lookup_none_iff {β : Type} (a : List (Str × β)) (k : Str) : a.lookup k = none ↔ k ∉ a.map (·.1) := by
  induction a with
  | nil => simp
  | cons p a ih =>
    obtain ⟨k', v⟩ := p
    rw [List.map_cons, List.mem_cons, not_or, ← ih]
    by_cases h : k = k'
    · simp [h]
    · simp only [List.lookup_cons, beq_eq_false_iff_ne.mpr h, h, not_false_eq_true, true_and]

theorem collect_ok (items : List (PyStr × List PyStr)) (a : List (Str × List Str)) (h : (a.map (·.1) ++ (shown items).map (·.1)).Nodup) :
    collect items a = .ok (a ++ shown items) := by
  induction items generalizing a with
  | nil => simp [collect, shown]
  | cons p items ih =>
    obtain ⟨k, vs⟩ := p
    have hk : a.lookup (Checker.formatted k) = none := by
      rw [lookup_none_iff]
      intro hm
      exact (List.nodup_append.mp h).2.2 _ hm _ (by simp [shown]) rfl
    simp only [collect, hk]
    rw [ih]
    · simp [shown]
    · simpa [shown] using h

/-- Made of text, every attribute once. -/
structure Plain (items : List (PyStr × List PyStr)) : Prop where
  text : ∀ p ∈ items, (∃ s, p.1 = .text s) ∧ ∀ v ∈ p.2, ∃ s, v = .text s
  once : (items.map (·.1)).Nodup

theorem shown_nodup {items : List (PyStr × List PyStr)} (h : Plain items) : ((shown items).map (·.1)).Nodup := by
  have e : (shown items).map (·.1) = (items.map (·.1)).map Checker.formatted := by simp [shown]
  rw [e]
  refine List.Nodup.map_on ?_ h.once
  intro x hx y hy hxy
  obtain ⟨p, hp, rfl⟩ := List.mem_map.mp hx
  obtain ⟨q, hq, rfl⟩ := List.mem_map.mp hy
  obtain ⟨s, hs⟩ := (h.text p hp).1
  obtain ⟨t, ht⟩ := (h.text q hq).1
  rw [hs, ht] at hxy ⊢
  simp only [Checker.formatted] at hxy
  rw [hxy]

theorem lookup_some_iff {β : Type} (a : List (Str × β)) (hn : (a.map (·.1)).Nodup) (k : Str) (v : β) : a.lookup k = some v ↔ (k, v) ∈ a := by
  induction a with
  | nil => simp
  | cons p a ih =>
    obtain ⟨k', v'⟩ := p
    simp only [List.map_cons, List.nodup_cons] at hn
    simp only [List.lookup_cons, List.mem_cons, Prod.mk.injEq]
    by_cases h : k = k'
    · subst h
      simp only [beq_self_eq_true, Option.some.injEq]
      constructor
      · intro h; exact .inl ⟨trivial, h.symm⟩
      · rintro (⟨_, h⟩ | h)
        · exact h.symm
        · exact absurd (List.mem_map.mpr ⟨_, h, rfl⟩) hn.1
    · simp only [beq_eq_false_iff_ne.mpr h, ih hn.2, h, false_and, false_or]

theorem lookup_shown {items : List (PyStr × List PyStr)} (h : Plain items) (n : Str) (l : List Str) :
    (shown items).lookup n = some l ↔ ∃ vs, (PyStr.text n, vs) ∈ items ∧ l = vs.map Checker.formatted := by
  rw [lookup_some_iff _ (shown_nodup h)]
  simp only [shown, List.mem_map, Prod.mk.injEq]
  constructor
  · rintro ⟨p, hp, h1, rfl⟩
    obtain ⟨s, hs⟩ := (h.text p hp).1
    rw [hs] at h1
    simp only [Checker.formatted] at h1
    subst h1
    exact ⟨p.2, by rw [← hs]; exact hp, rfl⟩
  · rintro ⟨vs, hm, rfl⟩
    exact ⟨_, hm, rfl, rfl⟩

theorem lookup_lacks {items : List (PyStr × List PyStr)} (h : Plain items) (n : Str) : (shown items).lookup n = none ↔ Lacks items n := by
  constructor
  · intro hn vs hm
    rw [(lookup_shown h n _).mpr ⟨vs, hm, rfl⟩] at hn; cases hn
  · intro hl
    cases hn : (shown items).lookup n with
    | none => rfl
    | some l =>
      obtain ⟨vs, hm, _⟩ := (lookup_shown h n l).mp hn
      exact absurd hm (hl vs)

theorem first_has {items : List (PyStr × List PyStr)} (h : Plain items) (n v : Str) :
    (∃ l, (shown items).lookup n = some l ∧ first l = .ok v) ↔ Has items n v := by
  constructor
  · rintro ⟨l, hl, hf⟩
    obtain ⟨vs, hm, rfl⟩ := (lookup_shown h n l).mp hl
    cases vs with
    | nil => simp [first] at hf
    | cons x vs =>
      obtain ⟨s, rfl⟩ := (h.text _ hm).2 x List.mem_cons_self
      simp only [List.map_cons, first, Checker.formatted, Except.ok.injEq] at hf
      subst hf
      exact ⟨vs, hm⟩
  · rintro ⟨vs, hm⟩
    exact ⟨_, (lookup_shown h n _).mpr ⟨_, hm, rfl⟩, rfl⟩

theorem field_has {items : List (PyStr × List PyStr)} (h : Plain items) (n v : Str) : field (shown items) n = .ok v ↔ Has items n v := by
  rw [← first_has h]
  unfold field
  cases hl : (shown items).lookup n with
  | none => simp
  | some l => simp

theorem default_has {items : List (PyStr × List PyStr)} (h : Plain items) (n v : Str) (d : List Str) :
    first (((shown items).lookup n).getD d) = .ok v ↔ Has items n v ∨ (Lacks items n ∧ first d = .ok v) := by
  rw [← first_has h, ← lookup_lacks h]
  cases hl : (shown items).lookup n with
  | none => simp
  | some l => simp

/-- An entry made of text is printed exactly if it describes an account, and then as the line of that account. -/
theorem printed_iff (items : List (PyStr × List PyStr)) (htext : ∀ p ∈ items, (∃ s, p.1 = .text s) ∧ ∀ v ∈ p.2, ∃ s, v = .text s)
    (honce : (items.map (·.1)).Nodup) (t : Str) : cbSearch items = .ok t ↔ ∃ a, Describes items a ∧ t = a.line := by
  have hp : Plain items := ⟨htext, honce⟩
  have hc : collect items [] = .ok (shown items) := collect_ok items [] (by simpa using shown_nodup hp)
  simp only [cbSearch, hc, bind, Except.bind, pure, Except.pure]
  constructor
  · intro h
    cases hl : line (shown items) with
    | error e => simp [hl] at h
    | ok l =>
      simp only [hl, Except.ok.injEq] at h
      subst h
      unfold line at hl
      generalize h1 : field (shown items) "uid".toList = f1 at hl
      generalize h2 : field (shown items) "uidNumber".toList = f2 at hl
      generalize h3 : field (shown items) "gidNumber".toList = f3 at hl
      generalize h4 : first (((shown items).lookup "gecos".toList).getD (((shown items).lookup "cn".toList).getD [[]])) = f4 at hl
      generalize h5 : field (shown items) "homeDirectory".toList = f5 at hl
      generalize h6 : first (((shown items).lookup "loginShell".toList).getD [[]]) = f6 at hl
      cases f1 with
      | error e => simp [bind, Except.bind] at hl
      | ok v1 =>
      cases f2 with
      | error e => simp [bind, Except.bind] at hl
      | ok v2 =>
      cases f3 with
      | error e => simp [bind, Except.bind] at hl
      | ok v3 =>
      cases f4 with
      | error e => simp [bind, Except.bind] at hl
      | ok v4 =>
      cases f5 with
      | error e => simp [bind, Except.bind] at hl
      | ok v5 =>
      cases f6 with
      | error e => simp [bind, Except.bind] at hl
      | ok v6 =>
      simp only [bind, Except.bind, pure, Except.pure, Except.ok.injEq] at hl
      refine ⟨⟨v1, v2, v3, v4, v5, v6⟩, ⟨htext, honce, (field_has hp _ _).mp h1, (field_has hp _ _).mp h2, (field_has hp _ _).mp h3, ?_,
        (field_has hp _ _).mp h5, ?_⟩, ?_⟩
      · rcases (default_has hp _ _ _).mp h4 with h | ⟨h, h'⟩
        · exact .inl h
        · refine .inr ⟨h, ?_⟩
          rcases (default_has hp _ _ _).mp h' with h | ⟨h, h'⟩
          · exact .inl h
          · simp only [first, Except.ok.injEq] at h'
            exact .inr ⟨h, h'.symm⟩
      · rcases (default_has hp _ _ _).mp h6 with h | ⟨h, h'⟩
        · exact .inl h
        · simp only [first, Except.ok.injEq] at h'
          exact .inr ⟨h, h'.symm⟩
      · rw [← hl]; simp [joinWith, Account.line]
  · rintro ⟨a, hd, rfl⟩
    have h1 := (field_has hp _ _).mpr hd.name
    have h2 := (field_has hp _ _).mpr hd.uid
    have h3 := (field_has hp _ _).mpr hd.gid
    have h5 := (field_has hp _ _).mpr hd.home
    have h6 : first (((shown items).lookup "loginShell".toList).getD [[]]) = .ok a.shell := by
      refine (default_has hp _ _ _).mpr ?_
      rcases hd.shell with h | ⟨h, e⟩
      · exact .inl h
      · exact .inr ⟨h, by rw [e]; rfl⟩
    have h4 : first (((shown items).lookup "gecos".toList).getD (((shown items).lookup "cn".toList).getD [[]])) = .ok a.gecos := by
      refine (default_has hp _ _ _).mpr ?_
      rcases hd.gecos with h | ⟨h, h'⟩
      · exact .inl h
      · refine .inr ⟨h, (default_has hp _ _ _).mpr ?_⟩
        rcases h' with h | ⟨h, e⟩
        · exact .inl h
        · exact .inr ⟨h, by rw [e]; rfl⟩
    unfold line
    rw [h1, h2, h3, h4, h5, h6]
    simp [bind, Except.bind, pure, Except.pure, joinWith, Account.line]

/-! ### Reading back -/

theorem split_append {c : Char} {f : Str} (hf : c ∉ f) (s : Str) : split c (f ++ c :: s) = f :: split c s := by
  induction f with
  | nil => simp [split]
  | cons x f ih =>
    simp only [List.mem_cons, not_or] at hf
    simp only [List.cons_append, split, if_neg (Ne.symm hf.1), ih hf.2]
    rfl

theorem split_one {c : Char} {f : Str} (hf : c ∉ f) : split c f = [f] := by
  induction f with
  | nil => simp [split]
  | cons x f ih =>
    simp only [List.mem_cons, not_or] at hf
    simp only [split, if_neg (Ne.symm hf.1), ih hf.2]
    rfl

/-- The line without its end. -/
def inner (a : Account) : Str :=
  a.name ++ ':' :: ("x".toList ++ ':' :: (a.uid ++ ':' :: (a.gid ++ ':' :: (a.gecos ++ ':' :: (a.home ++ ':' :: a.shell)))))

theorem line_inner (a : Account) : a.line = inner a ++ ['\n'] := by simp [Account.line, inner]

theorem readLine_inner (a : Account) (h : a.Clean) : readLine (inner a) = some a := by
  simp only [Account.Clean, List.forall_mem_cons] at h
  obtain ⟨h1, h2, h3, h4, h5, h6, _⟩ := h
  have hx : "x".toList = ['x'] := by decide
  unfold readLine inner
  rw [hx]
  rw [split_append h1.1, split_append (by decide), split_append h2.1, split_append h3.1, split_append h4.1, split_append h5.1, split_one h6.1]
  rfl

theorem inner_clean (a : Account) (h : a.Clean) : '\n' ∉ inner a := by
  simp only [Account.Clean, List.forall_mem_cons] at h
  obtain ⟨h1, h2, h3, h4, h5, h6, _⟩ := h
  simp [inner, h1.2, h2.2, h3.2, h4.2, h5.2, h6.2]

/-- What is printed reads back as the accounts that were found, if no field has a separator in it. -/
theorem read_back_partial (found : List (List (PyStr × List PyStr))) (accounts : List Account)
    (h : List.Forall₂ Describes found accounts) (hc : ∀ a ∈ accounts, a.Clean) :
    (printAll found).2 = .ok () ∧ readFile (printAll found).1 = accounts := by
  induction h with
  | nil => exact ⟨rfl, by decide⟩
  | cons hd _ ih =>
    rename_i e a es as _
    obtain ⟨i1, i2⟩ := ih (fun b hb => hc b (List.mem_cons_of_mem _ hb))
    have hca := hc a List.mem_cons_self
    have hp : cbSearch e = .ok a.line := (printed_iff e hd.text hd.once _).mpr ⟨a, hd, rfl⟩
    simp only [printAll, hp]
    refine ⟨i1, ?_⟩
    unfold readFile at i2 ⊢
    rw [line_inner, List.append_assoc, List.singleton_append, split_append (inner_clean a hca), List.filterMap_cons, readLine_inner a hca]
    simp only [i2]

/-! ### Where the full statement fails -/

theorem collect_keys (items : List (PyStr × List PyStr)) (a r : List (Str × List Str)) (h : collect items a = .ok r) :
    r = a ++ shown items := by
  induction items generalizing a with
  | nil => simp [collect] at h; simp [h, shown]
  | cons p items ih =>
    obtain ⟨k, vs⟩ := p
    simp only [collect] at h
    split at h
    · cases h
    · rw [ih _ h]; simp [shown]

/-- The attribute types of entries that the client finds are octets (ldapsyntax.py:641-642): none of them is ever printed, and
the first ends the printing. -/
theorem octets_fail (e : List (PyStr × List PyStr)) (es : List (List (PyStr × List PyStr))) (h : ∀ p ∈ e, ∃ b, p.1 = .bytes b) :
    ∃ x, printAll (e :: es) = ([], .error x) := by
  have hc : ∃ x, cbSearch e = .error x := by
    unfold cbSearch
    cases hc : collect e [] with
    | error x => exact ⟨x, rfl⟩
    | ok a =>
      have := collect_keys e [] a hc
      rw [List.nil_append] at this
      subst this
      have hl : (shown e).lookup "uid".toList = none := by
        rw [lookup_none_iff]
        intro hm
        obtain ⟨p, hp, e1⟩ := List.mem_map.mp hm
        obtain ⟨q, hq, rfl⟩ := List.mem_map.mp hp
        obtain ⟨b, hb⟩ := h q hq
        simp only [hb, Checker.formatted, Checker.reprOctets, List.cons_append] at e1
        have := congrArg List.head? e1
        revert this
        simp
      refine ⟨.keyError, ?_⟩
      simp only [line, field, hl, bind, Except.bind]
  obtain ⟨x, hx⟩ := hc
  exact ⟨x, by simp [printAll, hx]⟩

/-- The attributes of an account, as text. -/
def account (uid : Str) (home : Str) (shell : Str) : List (PyStr × List PyStr) :=
  [(.text "cn".toList, [.text "n".toList]), (.text "gidNumber".toList, [.text "100".toList]), (.text "homeDirectory".toList, [.text home]),
   (.text "loginShell".toList, [.text shell]), (.text "uid".toList, [.text uid]), (.text "uidNumber".toList, [.text "1000".toList])]

/-- An account whose shell has a line feed in it adds an account of its own, here one with all rights. -/
theorem injected : (printAll [account "joe".toList "/".toList "/bin/sh\nroot2:x:0:0::/:/bin/sh".toList]).2 = .ok () ∧
    readFile (printAll [account "joe".toList "/".toList "/bin/sh\nroot2:x:0:0::/:/bin/sh".toList]).1 =
      [⟨"joe".toList, "1000".toList, "100".toList, "n".toList, "/".toList, "/bin/sh".toList⟩,
       ⟨"root2".toList, "0".toList, "0".toList, [], "/".toList, "/bin/sh".toList⟩] := by decide +kernel

/-- An attribute type that is spelled in other letters is not found, though the entry itself would find it. -/
theorem case_lost : cbSearch ((account "joe".toList "/".toList "/bin/sh".toList).map fun p =>
    if p.1 = .text "uid".toList then (.text "UID".toList, p.2) else p) = .error .keyError := by decide +kernel

/-- The first of several values is taken, gecos rather than cn, and the shell may be missing; `items` has sorted the values (entry.py:110-116). -/
theorem without_shell : cbSearch [(.text "cn".toList, [.text "n".toList]), (.text "gecos".toList, [.text "g".toList, .text "h".toList]),
    (.text "gidNumber".toList, [.text "1".toList]), (.text "homeDirectory".toList, [.text "/".toList]), (.text "uid".toList, [.text "a".toList]),
    (.text "uidNumber".toList, [.text "2".toList])] = .ok "a:x:2:1:g:/:\n".toList := by decide +kernel

/-! ### Examples -/

example : Describes (account "joe".toList "/home".toList "/bin/sh".toList)
    ⟨"joe".toList, "1000".toList, "100".toList, "n".toList, "/home".toList, "/bin/sh".toList⟩ := by
  have h := (printed_iff (account "joe".toList "/home".toList "/bin/sh".toList) ?_ ?_ "joe:x:1000:100:n:/home:/bin/sh\n".toList).mp (by decide +kernel)
  · refine ⟨?_, ?_, ⟨[], ?_⟩, ⟨[], ?_⟩, ⟨[], ?_⟩, .inr ⟨?_, .inl ⟨[], ?_⟩⟩, ⟨[], ?_⟩, .inl ⟨[], ?_⟩⟩
    · simp [account]
    · decide +kernel
    · decide +kernel
    · decide +kernel
    · decide +kernel
    · intro vs hm; simp [account] at hm
    · decide +kernel
    · decide +kernel
    · decide +kernel
  · simp [account]
  · decide +kernel

example : Account.Clean ⟨"joe".toList, "1000".toList, "100".toList, "n".toList, "/home".toList, "/bin/sh".toList⟩ := by
  unfold Account.Clean; decide +kernel

example : cbSearch [(.bytes [0x75, 0x69, 0x64], [.bytes [0x6A]])] = .error .keyError := by decide +kernel

end Verif.C107
