import Verif.Spec.Options
import Verif.Props.C56
import Mathlib.Data.List.Forall2
/-
C106  Which server the options and the configuration file choose.

Full statement: the server asked for a DN is the one given for the longest suffix of the DN that any `--service-location` or
section of the file names; for the same suffix an option wins over the file, and a later one over an earlier one.  All that
the help text announces can be given, and what cannot be read is refused with a message.

Proved for DNs compared by spelling, as in C56 (`server_partial`), with the exact condition for a run to get this far
(`starts_iff`).  The rest does not hold: a base with a colon and an address of IPv6 cannot be given as they are
(`colon_in_base`, `ipv6_host`), `one` is refused as a scope (`one_refused`), some bases end the tool with another exception
(`other_error`), an empty host means different things in an option and in the file (`empty_host`), and white space that ends
a base is lost (`escaped_blank`).
-/
namespace Verif.C106
open Verif.Dn Verif.Connector Verif.Options Verif.Spec.Options
open Verif.C56 (configured nearest suffixes)

/-! ### Reading -/

theorem splitColon_some {s a b : Str} : splitColon s = some (a, b) ↔ s = a ++ ':' :: b ∧ ':' ∉ a := by
  induction s generalizing a with
  | nil => simp [splitColon]
  | cons c s ih =>
    simp only [splitColon]
    by_cases h : c = ':'
    · subst h
      rw [if_pos rfl]
      cases a with
      | nil => simp [eq_comm]
      | cons x a =>
        simp only [List.cons_append, List.cons.injEq, List.mem_cons, not_or]
        constructor
        · intro h; simp at h
        · rintro ⟨⟨rfl, _⟩, h, _⟩; exact absurd rfl h
    · rw [if_neg h]
      cases a with
      | nil => simp [h]
      | cons x a =>
        simp only [Option.map_eq_some_iff, Prod.exists, Prod.mk.injEq, List.cons.injEq, List.cons_append, List.mem_cons, not_or]
        constructor
        · rintro ⟨a', b', h1, ⟨rfl, rfl⟩, rfl⟩
          obtain ⟨h2, h3⟩ := ih.mp h1
          exact ⟨⟨rfl, h2⟩, fun e => h e.symm, h3⟩
        · rintro ⟨⟨rfl, h2⟩, _, h3⟩
          exact ⟨a, b, ih.mpr ⟨h2, h3⟩, ⟨rfl, rfl⟩, rfl⟩

theorem splitColon_none {s : Str} : splitColon s = none ↔ ':' ∉ s := by
  induction s with
  | nil => simp [splitColon]
  | cons c s ih =>
    simp only [splitColon]
    by_cases h : c = ':'
    · simp [h]
    · simp [h, ih, Ne.symm h]

/-- The value of an option is read as the help text says. -/
theorem read_iff (U : Unicode) (value : Str) (item : Dn × Location) : readLocation U value = .ok item ↔ OptionSays U value item := by
  obtain ⟨d, l⟩ := item
  unfold readLocation OptionSays
  constructor
  · intro h
    cases hs : splitColon value with
    | none => simp [hs] at h
    | some p =>
      obtain ⟨base, rest⟩ := p
      obtain ⟨h1, h2⟩ := splitColon_some.mp hs
      simp only [hs] at h
      cases hp : Dn.parse U base with
      | error e => rw [hp] at h; cases e <;> simp at h
      | ok dn =>
        rw [hp] at h
        simp only [Except.ok.injEq, Prod.mk.injEq] at h
        obtain ⟨rfl, rfl⟩ := h
        refine ⟨base, rest, h1, h2, hp, ?_⟩
        unfold hostPort
        cases hr : splitColon rest with
        | none => exact .inl ⟨splitColon_none.mp hr, rfl⟩
        | some q => exact .inr ⟨q.1, q.2, (splitColon_some.mp hr).1, (splitColon_some.mp hr).2, rfl⟩
  · rintro ⟨base, rest, h1, h2, hp, h3⟩
    rw [splitColon_some.mpr ⟨h1, h2⟩]
    simp only at hp h3 ⊢
    rw [hp]
    simp only [Except.ok.injEq, Prod.mk.injEq, true_and]
    unfold hostPort
    rcases h3 with ⟨h4, rfl⟩ | ⟨host, port, h4, h5, rfl⟩
    · rw [splitColon_none.mpr h4]
    · rw [splitColon_some.mpr ⟨h4, h5⟩]

/-- A DN whose text has no colon, a host and a port can be given. -/
theorem can_be_given (U : Unicode) (d : Dn) (hd : d.Good) (host port : Str) (h1 : ':' ∉ d.text) (h2 : ':' ∉ host) :
    readLocation U (d.text ++ ':' :: (host ++ ':' :: port)) = .ok (d, ⟨some host, some (.text port)⟩) ∧
    readLocation U (d.text ++ ':' :: host) = .ok (d, ⟨some host, none⟩) :=
  ⟨(read_iff ..).mpr ⟨_, _, rfl, h1, Dn.parse_text U d hd, .inr ⟨host, port, rfl, h2, rfl⟩⟩,
   (read_iff ..).mpr ⟨_, _, rfl, h1, Dn.parse_text U d hd, .inl ⟨h2, rfl⟩⟩⟩

theorem dropWhile_split (p : Char → Bool) (s : Str) : ∃ a, s = a ++ s.dropWhile p ∧ (∀ c ∈ a, p c = true) ∧
    ∀ c r, s.dropWhile p = c :: r → p c = false := by
  refine ⟨s.takeWhile p, (List.takeWhile_append_dropWhile).symm, fun c hc => by
    have := List.all_takeWhile (p := p) (l := s)
    exact List.all_eq_true.mp this c hc, ?_⟩
  intro c r h
  have := List.head?_dropWhile_not p s
  rw [h] at this
  simpa using this

theorem trimmed_strip (U : Unicode) (s : Str) : Trimmed U s (strip U s) := by
  unfold strip
  obtain ⟨a, h1, h2, h3⟩ := dropWhile_split U.space s
  obtain ⟨b, h4, h5, h6⟩ := dropWhile_split U.space (s.dropWhile U.space).reverse
  generalize hm : s.dropWhile U.space = m at *
  generalize ht : m.reverse.dropWhile U.space = t at *
  have h4' : m = t.reverse ++ b.reverse := by
    have := congrArg List.reverse h4
    simpa using this
  refine ⟨a, b.reverse, by rw [h1, h4']; simp, h2, by simpa using h5, ?_, ?_⟩
  · intro c r e
    exact h3 c (r ++ b.reverse) (by rw [h4', e]; simp)
  · intro c r e
    refine h6 c r.reverse ?_
    have := congrArg List.reverse e
    simpa using this

theorem trim_front (U : Unicode) {a t s : Str} (ha : ∀ c ∈ a, U.space c = true) (ht : ∀ c r, t = c :: r → U.space c = false)
    (hs : s = a ++ t) : s.dropWhile U.space = t := by
  subst hs
  induction a with
  | nil =>
    cases t with
    | nil => rfl
    | cons c r => simp [ht c r rfl]
  | cons x a ih =>
    simp only [List.cons_append, List.dropWhile_cons, ha x List.mem_cons_self, if_true]
    exact ih (fun c hc => ha c (List.mem_cons_of_mem _ hc))

theorem trimmed_unique (U : Unicode) {s t : Str} (h : Trimmed U s t) : t = strip U s := by
  obtain ⟨a, b, hs, ha, hb, h1, h2⟩ := h
  unfold strip
  cases t with
  | nil =>
    have : s.dropWhile U.space = [] := trim_front U (a := s) (by intro c hc; subst hs; simp at hc; exact hc.elim (ha c) (hb c)) (by simp) (by simp)
    rw [this]; rfl
  | cons c r =>
    have e1 : s.dropWhile U.space = c :: r ++ b :=
      trim_front U ha (fun x y e => by simp at e; exact h1 x r (by rw [e.1])) (by rw [hs]; simp)
    have e2 : (s.dropWhile U.space).reverse.dropWhile U.space = (c :: r).reverse := by
      refine trim_front U (a := b.reverse) (by simpa using hb) ?_ (by rw [e1]; simp)
      intro x y e
      refine h2 x y.reverse ?_
      have := congrArg List.reverse e
      simpa using this
    rw [e2]; simp

theorem value_nonEmpty (g v : Option Str) : Value g v ↔ v = nonEmpty g := by
  unfold Value
  cases g with
  | none => simp [nonEmpty]
  | some s => cases s <;> simp [nonEmpty]

theorem named_iff (U : Unicode) (x : Section) : Named U x ↔ "service-location ".toList.isPrefixOf (U.lower x.name) = true := by
  unfold Named
  generalize "service-location ".toList = p
  rw [List.isPrefixOf_iff_prefix]
  constructor
  · rintro ⟨t, h⟩; exact ⟨t, h.symm⟩
  · rintro ⟨t, h⟩; exact ⟨t, h.symm⟩

theorem readSection_other (U : Unicode) (x : Section) (h : ¬ Named U x) : readSection U x = .ok none := by
  unfold readSection
  rw [if_neg (fun e => h ((named_iff U x).mpr e))]; rfl

theorem readSection_named (U : Unicode) (x : Section) (h : Named U x) (o : Option (Dn × Location)) :
    readSection U x = .ok o ↔ ∃ item, o = some item ∧ SectionSays U x item := by
  unfold readSection
  rw [if_pos ((named_iff U x).mp h)]
  have e17 : "service-location ".length = 17 := by decide
  constructor
  · intro h
    cases hp : Dn.parse U (strip U (x.name.drop 17)) with
    | error e => simp [hp, bind, Except.bind] at h
    | ok dn =>
      simp only [hp, bind, Except.bind, pure, Except.pure, Except.ok.injEq] at h
      refine ⟨_, h.symm, _, _, _, ?_, hp, (value_nonEmpty _ _).mpr rfl, (value_nonEmpty _ _).mpr rfl, rfl⟩
      rw [e17]; exact trimmed_strip U _
  · rintro ⟨⟨d, l⟩, rfl, base, host, port, h1, h2, h3, h4, h5⟩
    rw [e17] at h1
    have := trimmed_unique U h1
    subst this
    simp only at h2 h5
    rw [(value_nonEmpty _ _).mp h3, (value_nonEmpty _ _).mp h4] at h5
    subst h5
    simp [h2, bind, Except.bind, pure, Except.pure]

/-! ### Bases with a colon -/

/-- One character of a base: a colon in hexadecimal, and what is special after a backslash. -/
def encodeChar (c : Char) : Str := if c = ':' then ['\\', '3', 'a'] else if c ∈ escapedChars ∨ c = ' ' then ['\\', c] else [c]

theorem encode_unescape (U : Unicode) (s rest : Str) :
    unescape U (s.flatMap encodeChar ++ rest) = (unescape U rest).map (s ++ ·) := by
  induction s with
  | nil => rw [List.flatMap_nil, List.nil_append]; cases unescape U rest <;> rfl
  | cons c s ih =>
    rw [List.flatMap_cons, List.append_assoc]
    rw [show encodeChar c = if c = ':' then ['\\', '3', 'a'] else if c ∈ escapedChars ∨ c = ' ' then ['\\', c] else [c] from rfl]
    by_cases h1 : c = ':'
    · subst h1
      have e : unescape U ('\\' :: '3' :: 'a' :: (List.flatMap encodeChar s ++ rest)) =
          (unescape U (List.flatMap encodeChar s ++ rest)).map (':' :: ·) := by
        have hx : intHex U ((hexValue '3').getD 0) 'a' = .ok 58 := by
          unfold intHex
          rw [show hexValue 'a' = some 10 by decide]
          rw [show (hexValue '3').getD 0 = 3 by decide]
        rw [unescape, if_pos (by decide)]
        simp only [hx, bind, Except.bind]
        cases unescape U (List.flatMap encodeChar s ++ rest) with
        | error e => rfl
        | ok r => rfl
      rw [if_pos rfl, List.cons_append, List.cons_append, List.cons_append, List.nil_append, e, ih]
      cases unescape U rest <;> simp [Except.map]
    · rw [if_neg h1]
      by_cases h2 : c ∈ escapedChars ∨ c = ' '
      · have hh : c ∉ lowerHexDigits := by
          rcases h2 with h | rfl
          · exact special_not_hex h
          · decide
        rw [if_pos h2, List.cons_append, List.cons_append, List.nil_append, unescape_backslash U hh, ih]
        cases unescape U rest <;> simp [Except.map]
      · rw [if_neg h2, List.cons_append, List.nil_append, unescape_plain U ?_, ih]
        · cases unescape U rest <;> simp [Except.map]
        · rintro rfl; exact h2 (.inl (by decide))

theorem encode_piece {sep : Char} (hsep : sep ∈ escapedChars) (s : Str) : Piece sep (s.flatMap encodeChar) := by
  induction s with
  | nil => exact .nil
  | cons c s ih =>
    rw [List.flatMap_cons]
    refine Piece.append ?_ ih
    unfold encodeChar
    by_cases h1 : c = ':'
    · rw [if_pos h1]
      have : sep ≠ 'a' := by rintro rfl; revert hsep; decide
      exact .pair _ _ (.char _ _ (Ne.symm this) (by decide) .nil)
    · rw [if_neg h1]
      by_cases h2 : c ∈ escapedChars ∨ c = ' '
      · rw [if_pos h2]; exact .pair _ _ .nil
      · rw [if_neg h2]
        refine .char _ _ ?_ ?_ .nil
        · rintro rfl; exact h2 (.inl hsep)
        · rintro rfl; exact h2 (.inl (by decide))

theorem encode_clean (s : Str) : ':' ∉ s.flatMap encodeChar ∧ (s.flatMap encodeChar).head? ≠ some ' ' := by
  have hc : ∀ c, ':' ∉ encodeChar c ∧ ∃ x r, encodeChar c = x :: r ∧ x ≠ ' ' := by
    intro c
    unfold encodeChar
    by_cases h1 : c = ':'
    · rw [if_pos h1]; exact ⟨by decide, _, _, rfl, by decide⟩
    · rw [if_neg h1]
      by_cases h2 : c ∈ escapedChars ∨ c = ' '
      · rw [if_pos h2]; exact ⟨by simp [Ne.symm h1], _, _, rfl, by decide⟩
      · rw [if_neg h2]; exact ⟨by simp [Ne.symm h1], _, _, rfl, fun e => h2 (.inr e)⟩
  constructor
  · intro h
    obtain ⟨c, _, h⟩ := List.mem_flatMap.mp h
    exact (hc c).1 h
  · cases s with
    | nil => simp
    | cons c s =>
      obtain ⟨_, x, r, e, hx⟩ := hc c
      rw [List.flatMap_cons, e]
      simpa using hx

/-- The text of an attribute and its value without colons. -/
def encodeAva (a : Ava) : Str := a.attributeType.flatMap encodeChar ++ '=' :: a.value.flatMap encodeChar

theorem encodeAva_read (U : Unicode) (a : Ava) (h : a.Plain) : Ava.read U (encodeAva a) = .ok a := by
  have hv := encode_unescape U a.value []
  rw [List.append_nil] at hv
  unfold Ava.read encodeAva
  rw [encode_unescape U, unescape_plain U (by decide), hv]
  simp only [unescape, bind, Except.bind, Except.map]
  unfold Ava.parse
  rw [List.append_nil, takeWhile_plain h, dropWhile_plain h]
  simp

theorem encodeAva_piece {sep : Char} (hsep : sep ∈ escapedChars) (h : sep ≠ '=') (a : Ava) : Piece sep (encodeAva a) :=
  .append (encode_piece hsep _) (.char _ _ (Ne.symm h) (by decide) (encode_piece hsep _))

theorem encodeAva_head (a : Ava) : (encodeAva a).head? ≠ some ' ' ∧ encodeAva a ≠ [] ∧ ':' ∉ encodeAva a := by
  refine ⟨?_, by simp [encodeAva], ?_⟩
  · have := (encode_clean a.attributeType).2
    unfold encodeAva
    cases h : a.attributeType.flatMap encodeChar with
    | nil => simp
    | cons c t => rw [h] at this; simpa using this
  · simp [encodeAva, -List.mem_flatMap, (encode_clean _).1]

theorem joinWith_not_mem {c sep : Char} (h : c ≠ sep) (ps : List Str) (hp : ∀ p ∈ ps, c ∉ p) : c ∉ joinWith [sep] ps := by
  induction ps with
  | nil => simp [joinWith]
  | cons p ps ih =>
    cases ps with
    | nil => exact hp p (by simp)
    | cons q qs =>
      rw [joinWith]
      · have := ih (fun x hx => hp x (List.mem_cons_of_mem _ hx))
        simp [hp p (by simp), h, this]
      · intro e; cases e

theorem joinWith_head {sep : Char} (ps : List Str) (hp : ∀ p ∈ ps, p.head? ≠ some ' ' ∧ p ≠ []) : (joinWith [sep] ps).head? ≠ some ' ' := by
  cases ps with
  | nil => simp [joinWith]
  | cons p ps =>
    obtain ⟨h1, h2⟩ := hp p (by simp)
    cases ps with
    | nil => exact h1
    | cons q qs =>
      rw [joinWith]
      · cases p with
        | nil => exact absurd rfl h2
        | cons c t => simpa using h1
      · intro e; cases e

/-- Every DN that has a text can be given as the base of an option, also if it has colons. -/
theorem any_base (U : Unicode) (d : Dn) (hd : d.Good) : ∃ base, ':' ∉ base ∧ Dn.parse U base = .ok d := by
  have hr : ∀ r : Rdn, (∀ a ∈ r, a.Plain) → Rdn.parse U (joinWith ['+'] (r.map encodeAva)) = .ok r := by
    intro r hr
    unfold Rdn.parse
    rw [split_join (by decide) (by decide) (by decide)]
    · exact mapPy_of_forall _ fun a ha => encodeAva_read U a (hr a ha)
    · intro e
      cases r with
      | nil => cases e
      | cons a r => simp only [List.map_cons, List.cons.injEq] at e; exact (encodeAva_head _).2.1 e.1
    · intro q hq
      obtain ⟨a, _, rfl⟩ := List.mem_map.mp hq
      exact encodeAva_piece (by decide) (by decide) a
    · intro q hq
      obtain ⟨a, _, rfl⟩ := List.mem_map.mp hq
      exact (encodeAva_head a).1
  refine ⟨joinWith [','] (d.map fun r => joinWith ['+'] (r.map encodeAva)), ?_, ?_⟩
  · refine joinWith_not_mem (by decide) _ ?_
    intro p hp
    obtain ⟨r, _, rfl⟩ := List.mem_map.mp hp
    refine joinWith_not_mem (by decide) _ ?_
    intro q hq
    obtain ⟨a, _, rfl⟩ := List.mem_map.mp hq
    exact (encodeAva_head a).2.2
  · unfold Dn.parse
    rw [split_join (by decide) (by decide) (by decide)]
    · exact mapPy_of_forall _ fun r h => hr r (hd.plain r h)
    · intro e
      cases d with
      | nil => cases e
      | cons r d =>
        simp only [List.map_cons, List.cons.injEq, List.map_eq_nil_iff] at e
        refine hd.notEmptyRdn ?_
        cases r with
        | nil => rw [e.2]
        | cons a r => exact absurd e.1 (joinWith_ne (.inl (encodeAva_head a).2.1))
    · intro q hq
      obtain ⟨r, _, rfl⟩ := List.mem_map.mp hq
      refine joinWith_piece (by decide) (by decide) _ ?_
      intro p hp
      obtain ⟨a, _, rfl⟩ := List.mem_map.mp hp
      exact encodeAva_piece (by decide) (by decide) a
    · intro q hq
      obtain ⟨r, _, rfl⟩ := List.mem_map.mp hq
      refine joinWith_head _ ?_
      intro p hp
      obtain ⟨a, _, rfl⟩ := List.mem_map.mp hp
      exact ⟨(encodeAva_head a).1, (encodeAva_head a).2.1⟩

/-- Also a DN whose text has a colon can be given, with each host and each port. -/
theorem every_base_can_be_given (U : Unicode) (d : Dn) (hd : d.Good) : ∃ base, ':' ∉ base ∧ ∀ host port, ':' ∉ host →
    readLocation U (base ++ ':' :: (host ++ ':' :: port)) = .ok (d, ⟨some host, some (.text port)⟩) ∧
    readLocation U (base ++ ':' :: host) = .ok (d, ⟨some host, none⟩) := by
  obtain ⟨base, h1, h⟩ := any_base U d hd
  exact ⟨base, h1, fun host port h2 => ⟨(read_iff ..).mpr ⟨_, _, rfl, h1, h, .inr ⟨host, port, rfl, h2, rfl⟩⟩,
    (read_iff ..).mpr ⟨_, _, rfl, h1, h, .inl ⟨h2, rfl⟩⟩⟩⟩

/-! ### Dictionaries -/

section dict
variable {α : Type}

theorem dictSet_fst (U : Unicode) (hash : Str → Int) (hh : Function.Injective hash) {k : Dn} (hk : k.Good) (v : α) (d : List (Dn × α))
    (hd : ∀ p ∈ d, p.1.Good) : (dictSet U hash k v d).map (·.1) = if k ∈ d.map (·.1) then d.map (·.1) else d.map (·.1) ++ [k] := by
  induction d with
  | nil => simp [dictSet]
  | cons q d ih =>
    obtain ⟨k', v'⟩ := q
    have hk' := hd _ List.mem_cons_self
    simp only [dictSet]
    by_cases h : k' = k
    · subst h
      rw [if_pos ((C56.match_iff U hash hh hk' hk).mpr rfl)]; simp
    · rw [if_neg (mt (C56.match_iff U hash hh hk' hk).mp h)]
      simp only [List.map_cons, ih (fun p hp => hd p (List.mem_cons_of_mem _ hp)), List.mem_cons, Ne.symm h, false_or]
      split <;> simp

theorem dictSet_absent (U : Unicode) (hash : Str → Int) (hh : Function.Injective hash) {k : Dn} (hk : k.Good) (v : α) (d : List (Dn × α))
    (hd : ∀ p ∈ d, p.1.Good) (ha : k ∉ d.map (·.1)) : dictSet U hash k v d = d ++ [(k, v)] := by
  induction d with
  | nil => simp [dictSet]
  | cons q d ih =>
    obtain ⟨k', v'⟩ := q
    have hk' := hd _ List.mem_cons_self
    simp only [List.map_cons, List.mem_cons, not_or] at ha
    simp only [dictSet]
    rw [if_neg (mt (C56.match_iff U hash hh hk' hk).mp (Ne.symm ha.1))]
    rw [ih (fun p hp => hd p (List.mem_cons_of_mem _ hp)) ha.2]; rfl

theorem build_good (U : Unicode) (hash : Str → Int) (hh : Function.Injective hash) (items : List (Dn × α)) (hi : ∀ p ∈ items, p.1.Good) :
    ((build U hash items).map (·.1)).Nodup ∧ ∀ p ∈ build U hash items, ∃ q ∈ items, p.1 = q.1 := by
  induction items using List.reverseRecOn with
  | nil => simp [build]
  | append_singleton items p ih =>
    obtain ⟨h1, h2⟩ := ih (fun q hq => hi q (by simp [hq]))
    have hg := (C56.build_spec U hash hh items (fun q hq => hi q (by simp [hq]))).1
    simp only [build, List.foldl_append, List.foldl_cons, List.foldl_nil] at h1 h2 hg ⊢
    constructor
    · rw [dictSet_fst U hash hh (hi p (by simp)) p.2 _ hg]
      split
      · exact h1
      · rename_i h
        exact List.nodup_append.mpr ⟨h1, by simp, by intro a ha b hb; simp at hb; subst hb; rintro rfl; exact h ha⟩
    · intro q hq
      rcases C56.dictSet_keys U hash _ _ _ q hq with e | ⟨q', hq', e⟩
      · exact ⟨p, by simp, e⟩
      · obtain ⟨r, hr, e'⟩ := h2 q' hq'
        exact ⟨r, by simp [hr], e.trans e'⟩

/-- Filling a dictionary from one that has every key once gives the same dictionary. -/
theorem build_nodup (U : Unicode) (hash : Str → Int) (hh : Function.Injective hash) (items : List (Dn × α)) (hi : ∀ p ∈ items, p.1.Good)
    (hn : (items.map (·.1)).Nodup) : build U hash items = items := by
  induction items using List.reverseRecOn with
  | nil => rfl
  | append_singleton items p ih =>
    have hi' : ∀ q ∈ items, q.1.Good := fun q hq => hi q (by simp [hq])
    rw [List.map_append, List.nodup_append] at hn
    have := ih hi' hn.1
    simp only [build, List.foldl_append, List.foldl_cons, List.foldl_nil] at this ⊢
    rw [this]
    exact dictSet_absent U hash hh (hi p (by simp)) _ _ hi' (fun h => hn.2.2 _ h p.1 (by simp) rfl)

theorem build_build (U : Unicode) (hash : Str → Int) (hh : Function.Injective hash) (items : List (Dn × α)) (hi : ∀ p ∈ items, p.1.Good) :
    build U hash (build U hash items) = build U hash items :=
  build_nodup U hash hh _ (C56.build_spec U hash hh items hi).1 (build_good U hash hh items hi).1

theorem configured_build (U : Unicode) (hash : Str → Int) (hh : Function.Injective hash) (items : List (Dn × α)) (hi : ∀ p ∈ items, p.1.Good)
    (x : Dn) : configured (build U hash items) x = configured items x := by
  have hs := C56.build_spec U hash hh items hi
  by_cases hx : x.Good
  · rw [← hs.2 x hx, ← (C56.build_spec U hash hh _ hs.1).2 x hx, build_build U hash hh items hi]
  · have none : ∀ l : List (Dn × α), (∀ p ∈ l, p.1.Good) → configured l x = none := by
      intro l hl
      unfold configured
      rw [Option.map_eq_none_iff, List.find?_eq_none]
      intro p hp e
      simp only [decide_eq_true_eq] at e
      exact hx (e ▸ hl p (by simpa using hp))
    rw [none _ hs.1, none _ hi]

theorem configured_append (a b : List (Dn × α)) (x : Dn) : configured (a ++ b) x = (configured b x).or (configured a x) := by
  unfold configured
  rw [List.reverse_append, List.find?_append]
  cases b.reverse.find? _ <;> simp

end dict

/-! ### A run -/

theorem optAll_ok (U : Unicode) (hash : Str → Int) (vs : List Str) (d r : List (Dn × Location)) :
    optAll U hash d vs = .ok r ↔ ∃ items, List.Forall₂ (OptionSays U) vs items ∧ r = update U hash d items := by
  induction vs generalizing d with
  | nil =>
    constructor
    · intro h
      simp only [optAll, Except.ok.injEq] at h
      exact ⟨[], .nil, h.symm⟩
    · rintro ⟨items, h, rfl⟩
      cases h; rfl
  | cons v vs ih =>
    simp only [optAll, optServiceLocation]
    cases hr : readLocation U v with
    | error e =>
      simp only [reduceCtorEq, false_iff]
      rintro ⟨items, h, _⟩
      cases h with
      | cons h _ => rw [(read_iff ..).mpr h] at hr; simp at hr
    | ok p =>
      obtain ⟨k, l⟩ := p
      simp only
      rw [ih]
      constructor
      · rintro ⟨items, h, rfl⟩
        exact ⟨(k, l) :: items, .cons ((read_iff ..).mp hr) h, rfl⟩
      · rintro ⟨items, h, rfl⟩
        cases h with
        | cons h1 h2 =>
          rw [(read_iff ..).mpr h1] at hr
          cases hr
          exact ⟨_, h2, rfl⟩

theorem load_ok (U : Unicode) (hash : Str → Int) (xs : List Section) (d r : List (Dn × Location)) :
    loadOverrides U hash d xs = .ok r ↔ ∃ items, FileSays U xs items ∧ r = update U hash d items := by
  induction xs generalizing d with
  | nil =>
    constructor
    · intro h
      simp only [loadOverrides, Except.ok.injEq] at h
      exact ⟨[], .nil, h.symm⟩
    · rintro ⟨items, h, rfl⟩
      cases h; rfl
  | cons x xs ih =>
    by_cases hn : Named U x
    · constructor
      · intro h
        cases hs : readSection U x with
        | error e => simp [loadOverrides, hs, bind, Except.bind] at h
        | ok o =>
          obtain ⟨item, rfl, hsay⟩ := (readSection_named U x hn o).mp hs
          simp only [loadOverrides, hs, bind, Except.bind] at h
          obtain ⟨items, h1, h2⟩ := (ih _).mp h
          exact ⟨item :: items, .one hn hsay h1, h2⟩
      · rintro ⟨items, h, rfl⟩
        cases h with
        | other h1 _ => exact absurd hn h1
        | one _ h1 h2 =>
          rename_i item items
          simp only [loadOverrides, (readSection_named U x hn _).mpr ⟨_, rfl, h1⟩, bind, Except.bind]
          exact (ih _).mpr ⟨_, h2, rfl⟩
    · simp only [loadOverrides, readSection_other U x hn, bind, Except.bind]
      rw [ih]
      constructor
      · rintro ⟨items, h, e⟩; exact ⟨items, .other hn h, e⟩
      · rintro ⟨items, h, e⟩
        cases h with
        | other _ h => exact ⟨items, h, e⟩
        | one h _ _ => exact absurd h hn

theorem option_parsed {U : Unicode} {vs : List Str} {items : List (Dn × Location)} (h : List.Forall₂ (OptionSays U) vs items) :
    ∀ p ∈ items, ∃ s, Dn.parse U s = .ok p.1 := by
  induction h with
  | nil => simp
  | cons h _ ih =>
    obtain ⟨base, _, _, _, hp, _⟩ := h
    intro p hp'
    rcases List.mem_cons.mp hp' with rfl | hp'
    · exact ⟨base, hp⟩
    · exact ih p hp'

theorem file_parsed {U : Unicode} {xs : List Section} {items : List (Dn × Location)} (h : FileSays U xs items) :
    ∀ p ∈ items, ∃ s, Dn.parse U s = .ok p.1 := by
  induction h with
  | nil => simp
  | other _ _ ih => exact ih
  | one _ h _ ih =>
    obtain ⟨base, _, _, _, hp, _⟩ := h
    intro p hp'
    rcases List.mem_cons.mp hp' with rfl | hp'
    · exact ⟨base, hp⟩
    · exact ih p hp'

/-- The server for a DN is the one given for its longest suffix that the options or the file name; for the same suffix
options win over the file and the last one wins. -/
theorem server_partial (U : Unicode) (hash : Str → Int) (hh : Function.Injective hash) (options : List Str) (f : File)
    (given written : List (Dn × Location)) (hg : List.Forall₂ (OptionSays U) options given) (hw : FileSays U f.sections written)
    (s : Str) (d : Dn) (hd : Dn.parse U s = .ok d) (hne : [] ∉ d) :
    toolOverride U hash options f d = .ok (nearest (written ++ given) d) := by
  have hgp := option_parsed hg
  have hwp := file_parsed hw
  have hgg : ∀ p ∈ given, p.1.Good := fun p hp => by obtain ⟨t, ht⟩ := hgp p hp; exact Dn.parse_good ht
  have e1 : optAll U hash [] options = .ok (build U hash given) := (optAll_ok ..).mpr ⟨given, hg, rfl⟩
  have e2 : loadOverrides U hash [] f.sections = .ok (build U hash written) := (load_ok ..).mpr ⟨written, hw, rfl⟩
  have e3 : update U hash (build U hash written) (build U hash given) = build U hash (written ++ build U hash given) := by
    simp only [update, build, List.foldl_append]
  simp only [toolOverride, e1, getOverrides, e2, init, Option.getD_some, bind, Except.bind, pure, Except.pure, Except.ok.injEq]
  rw [build_build U hash hh given hgg, e3]
  rw [C56.nearest_partial U hash hh _ ?_ s d hd hne]
  · unfold nearest
    congr 1
    funext x
    rw [configured_append, configured_append, configured_build U hash hh given hgg]
  · intro p hp
    rcases List.mem_append.mp hp with hp | hp
    · exact hwp p hp
    · obtain ⟨q, hq, e⟩ := (build_good U hash hh given hgg).2 p hp
      obtain ⟨t, ht⟩ := hgp q hq
      exact ⟨t, e ▸ ht⟩

/-- A tool gets to connect exactly if all its options and all the sections of the file can be read. -/
theorem starts_iff (U : Unicode) (hash : Str → Int) (options : List Str) (f : File) (d : Dn) :
    (∃ r, toolOverride U hash options f d = .ok r) ↔
      (∀ v ∈ options, ∃ item, OptionSays U v item) ∧ ∀ x ∈ f.sections, Named U x → ∃ item, SectionSays U x item := by
  have a1 : (∀ v ∈ options, ∃ item, OptionSays U v item) ↔ ∃ items, List.Forall₂ (OptionSays U) options items := by
    generalize options = vs
    induction vs with
    | nil => exact ⟨fun _ => ⟨[], .nil⟩, by simp⟩
    | cons v vs ih =>
      constructor
      · intro h
        obtain ⟨i, hi⟩ := h v List.mem_cons_self
        obtain ⟨is, his⟩ := ih.mp (fun w hw => h w (List.mem_cons_of_mem _ hw))
        exact ⟨i :: is, .cons hi his⟩
      · rintro ⟨_, h⟩
        cases h with
        | cons h1 h2 =>
          intro w hw
          rcases List.mem_cons.mp hw with rfl | hw
          · exact ⟨_, h1⟩
          · exact ih.mpr ⟨_, h2⟩ w hw
  have a2 : (∀ x ∈ f.sections, Named U x → ∃ item, SectionSays U x item) ↔ ∃ items, FileSays U f.sections items := by
    generalize f.sections = xs
    induction xs with
    | nil => simp; exact ⟨[], .nil⟩
    | cons x xs ih =>
      constructor
      · intro h
        obtain ⟨is, his⟩ := ih.mp (fun w hw => h w (List.mem_cons_of_mem _ hw))
        by_cases hn : Named U x
        · obtain ⟨i, hi⟩ := h x List.mem_cons_self hn
          exact ⟨i :: is, .one hn hi his⟩
        · exact ⟨is, .other hn his⟩
      · rintro ⟨_, h⟩ w hw hwn
        rcases List.mem_cons.mp hw with rfl | hw
        · cases h with
          | other h1 _ => exact absurd hwn h1
          | one _ h1 _ => exact ⟨_, h1⟩
        · cases h with
          | other _ h2 => exact ih.mpr ⟨_, h2⟩ w hw hwn
          | one _ _ h2 => exact ih.mpr ⟨_, h2⟩ w hw hwn
  rw [a1, a2]
  unfold toolOverride
  constructor
  · rintro ⟨r, h⟩
    cases h1 : optAll U hash [] options with
    | error e => simp [h1] at h
    | ok o =>
      obtain ⟨items, hi, _⟩ := (optAll_ok ..).mp h1
      refine ⟨⟨items, hi⟩, ?_⟩
      cases h2 : loadOverrides U hash [] f.sections with
      | error e => simp [h1, getOverrides, h2, bind, Except.bind] at h
      | ok o =>
        obtain ⟨items, hi, _⟩ := (load_ok ..).mp h2
        exact ⟨items, hi⟩
  · rintro ⟨⟨is, his⟩, js, hjs⟩
    rw [(optAll_ok ..).mpr ⟨is, his, rfl⟩]
    simp only [getOverrides, (load_ok U hash f.sections [] _).mpr ⟨js, hjs, rfl⟩, bind, Except.bind, pure, Except.pure]
    exact ⟨_, rfl⟩

theorem nearest_self {items : List (Dn × Location)} {d : Dn} {l : Location} (h : configured items d = some l) : nearest items d = some l := by
  unfold nearest
  cases d <;> simp [suffixes, h]

theorem forall₂_append {α β : Type} {R : α → β → Prop} {a c : List α} {b d : List β} (h : List.Forall₂ R a b) (h' : List.Forall₂ R c d) :
    List.Forall₂ R (a ++ c) (b ++ d) := by
  induction h with
  | nil => exact h'
  | cons h _ ih => exact .cons h ih

/-- The last option for a DN decides, whatever the file says. -/
theorem option_wins (U : Unicode) (hash : Str → Int) (hh : Function.Injective hash) (before after : List Str) (v : Str) (f : File)
    (s : Str) (d : Dn) (l : Location) (hv : OptionSays U v (d, l)) (ha : ∀ w ∈ after, ∃ item, OptionSays U w item ∧ item.1 ≠ d)
    (hb : ∀ w ∈ before, ∃ item, OptionSays U w item) (hf : ∃ written, FileSays U f.sections written)
    (hd : Dn.parse U s = .ok d) (hne : [] ∉ d) : toolOverride U hash (before ++ v :: after) f d = .ok (some l) := by
  obtain ⟨written, hw⟩ := hf
  have hb' : ∃ bs, List.Forall₂ (OptionSays U) before bs := by
    clear ha
    induction before with
    | nil => exact ⟨[], .nil⟩
    | cons w ws ih =>
      obtain ⟨i, hi⟩ := hb w List.mem_cons_self
      obtain ⟨is, his⟩ := ih (fun w hw => hb w (List.mem_cons_of_mem _ hw))
      exact ⟨i :: is, .cons hi his⟩
  have ha' : ∃ as, List.Forall₂ (OptionSays U) after as ∧ ∀ i ∈ as, i.1 ≠ d := by
    clear hb
    induction after with
    | nil => exact ⟨[], .nil, by simp⟩
    | cons w ws ih =>
      obtain ⟨i, hi, hi'⟩ := ha w List.mem_cons_self
      obtain ⟨is, his, his'⟩ := ih (fun w hw => ha w (List.mem_cons_of_mem _ hw))
      refine ⟨i :: is, .cons hi his, ?_⟩
      intro j hj
      rcases List.mem_cons.mp hj with rfl | hj
      · exact hi'
      · exact his' j hj
  obtain ⟨bs, hbs⟩ := hb'
  obtain ⟨as, has, has'⟩ := ha'
  rw [server_partial U hash hh _ f (bs ++ (d, l) :: as) written (forall₂_append hbs (.cons hv has)) hw s d hd hne]
  rw [nearest_self]
  rw [configured_append, configured_append]
  have : configured ((d, l) :: as) d = some l := by
    have h0 : configured as d = none := by
      unfold configured
      rw [Option.map_eq_none_iff, List.find?_eq_none]
      intro p hp e
      exact has' p (by simpa using hp) (by simpa using e)
    have := configured_append [(d, l)] as d
    rw [List.singleton_append] at this
    rw [this, h0]
    simp [configured]
  rw [this]; rfl

/-- A section for the DN itself decides over options that are for DNs above it only. -/
theorem file_nearer_wins (U : Unicode) (hash : Str → Int) (hh : Function.Injective hash) (options : List Str) (f : File)
    (given written : List (Dn × Location)) (hg : List.Forall₂ (OptionSays U) options given) (hw : FileSays U f.sections written)
    (s : Str) (d : Dn) (l : Location) (hd : Dn.parse U s = .ok d) (hne : [] ∉ d) (ho : ∀ i ∈ given, i.1 ≠ d)
    (hl : configured written d = some l) : toolOverride U hash options f d = .ok (some l) := by
  rw [server_partial U hash hh _ f given written hg hw s d hd hne, nearest_self]
  rw [configured_append, hl]
  have h0 : configured given d = none := by
    unfold configured
    rw [Option.map_eq_none_iff, List.find?_eq_none]
    intro p hp e
    exact ho p (by simpa using hp) (by simpa using e)
  rw [h0]; rfl

/-! ### The other options -/

/-- Exactly these scopes are known. -/
theorem scope_iff (s : Str) (n : Int) : postScope s = .ok n ↔
    (n = 0 ∧ (s = "base".toList ∨ s = "baseObject".toList)) ∨ (n = 1 ∧ (s = "single".toList ∨ s = "singleLevel".toList)) ∨
    (n = 2 ∧ (s = "sub".toList ∨ s = "subtree".toList ∨ s = "wholeSubtree".toList)) := by
  constructor
  · intro h
    by_cases e1 : s = "base".toList
    · subst e1; rw [show postScope "base".toList = .ok 0 by decide +kernel] at h; cases h; simp
    by_cases e2 : s = "single".toList
    · subst e2; rw [show postScope "single".toList = .ok 1 by decide +kernel] at h; cases h; simp
    by_cases e3 : s = "subtree".toList
    · subst e3; rw [show postScope "subtree".toList = .ok 2 by decide +kernel] at h; cases h; simp
    by_cases e4 : s = "sub".toList
    · subst e4; rw [show postScope "sub".toList = .ok 2 by decide +kernel] at h; cases h; simp
    have hs : synonyms.lookup s = none := by
      unfold synonyms
      simp only [List.lookup_cons, List.lookup_nil, beq_eq_false_iff_ne.mpr e1, beq_eq_false_iff_ne.mpr e2, beq_eq_false_iff_ne.mpr e3,
        beq_eq_false_iff_ne.mpr e4]
    unfold postScope at h
    rw [hs, Option.getD_none] at h
    by_cases f1 : s = "baseObject".toList
    · subst f1; rw [show scopes.lookup "baseObject".toList = some 0 by decide +kernel] at h; cases h; simp
    by_cases f2 : s = "singleLevel".toList
    · subst f2; rw [show scopes.lookup "singleLevel".toList = some 1 by decide +kernel] at h; cases h; simp
    by_cases f3 : s = "wholeSubtree".toList
    · subst f3; rw [show scopes.lookup "wholeSubtree".toList = some 2 by decide +kernel] at h; cases h; simp
    have : scopes.lookup s = none := by
      unfold scopes
      simp only [List.lookup_cons, List.lookup_nil, beq_eq_false_iff_ne.mpr f1, beq_eq_false_iff_ne.mpr f2, beq_eq_false_iff_ne.mpr f3]
    rw [this] at h; cases h
  · rintro (⟨rfl, rfl | rfl⟩ | ⟨rfl, rfl | rfl⟩ | ⟨rfl, rfl | rfl | rfl⟩) <;> decide +kernel

/-- `one`, which the help text names (usage.py:77), is refused. -/
theorem one_refused : postScope "one".toList = .error .usage := by decide +kernel

/-- The descriptor for the password must be a number, and a DN to bind with that is empty counts as none. -/
theorem bind_options (fd binddn : Option Str) :
    (∀ n : Option Int, postFd fd = .ok n ↔ (fd = none ∧ n = none) ∨ ∃ s i, fd = some s ∧ Decimal.toInt s = .ok i ∧ n = some i) ∧
    (postBind binddn = .ok () ↔ ∃ s, binddn = some s ∧ s ≠ []) := by
  constructor
  · intro n
    cases fd with
    | none => simp [postFd, eq_comm]
    | some s =>
      simp only [postFd]
      cases h : Decimal.toInt s with
      | error e => simp [h]
      | ok i => simp [h, eq_comm]
  · match binddn with
    | none => simp [postBind]
    | some [] => simp [postBind]
    | some (c :: s) => simp [postBind]

/-- The base must be given, but may be empty. -/
theorem base_option (base : Option Str) : postBase base = .ok () ↔ base ≠ none := by cases base <;> simp [postBase]

/-! ### The getters -/

/-- The base for logins: that of the constructor, else that of the file, else the general base, in the same order; a base
from the file is text, and not a DN. -/
theorem identity_base (f : File) (c : Config) (b : Base) : getIdentityBaseDN f c = some b ↔
    (∃ d, c.identityBaseDN = some d ∧ b = .dn d) ∨
    (c.identityBaseDN = none ∧ ((∃ s, f.identityBase = some s ∧ b = .text s) ∨
      (f.identityBase = none ∧ ((∃ d, c.baseDN = some d ∧ b = .dn d) ∨ (c.baseDN = none ∧ ∃ s, f.base = some s ∧ b = .text s))))) := by
  unfold getIdentityBaseDN getBaseDN
  cases c.identityBaseDN <;> cases f.identityBase <;> cases c.baseDN <;> cases f.base <;> simp [eq_comm]

/-- A copy without arguments is the same configuration. -/
theorem copy_same (U : Unicode) (hash : Str → Int) (hh : Function.Injective hash) (b i : Option Dn) (o : Option (List (Dn × Location)))
    (srch : Option Str) (ho : ∀ l, o = some l → ∀ p ∈ l, ∃ s, Dn.parse U s = .ok p.1) :
    copy U hash (init U hash b o i srch) {} = init U hash b o i srch := by
  have hg : ∀ p ∈ o.getD [], p.1.Good := by
    cases o with
    | none => simp
    | some l => intro p hp; obtain ⟨t, ht⟩ := ho l rfl p hp; exact Dn.parse_good ht
  simp only [copy, init, Option.getD_none, Option.getD_some]
  rw [build_build U hash hh _ hg]

/-- A copy has what it is given and keeps the rest. -/
theorem copy_changes (U : Unicode) (hash : Str → Int) (c : Config) (kw : Changes) :
    (copy U hash c kw).baseDN = kw.baseDN.getD c.baseDN ∧ (copy U hash c kw).identityBaseDN = kw.identityBaseDN.getD c.identityBaseDN ∧
    (copy U hash c kw).identitySearch = kw.identitySearch.getD c.identitySearch ∧
    ∀ l, kw.overrides = some (some l) → (copy U hash c kw).overrides = build U hash l := by
  refine ⟨rfl, rfl, rfl, ?_⟩
  intro l h
  simp [copy, init, h]

/-! ### Where the full statement fails -/

/-- A base that has a colon is cut there; the colon must be given in hexadecimal. -/
theorem colon_in_base :
    (∃ d, Dn.parse asciiTables "cn=a:b,dc=x".toList = .ok d ∧
      readLocation asciiTables "cn=a:b,dc=x:host".toList = .ok ([[⟨"cn".toList, "a".toList⟩]], ⟨some "b,dc=x".toList, some (.text "host".toList)⟩) ∧
      readLocation asciiTables "cn=a\\3ab,dc=x:host".toList = .ok (d, ⟨some "host".toList, none⟩)) :=
  ⟨[[⟨"cn".toList, "a:b".toList⟩], [⟨"dc".toList, "x".toList⟩]], by decide +kernel, by decide +kernel, by decide +kernel⟩

/-- An address of IPv6 is cut at its first colon, with and without brackets. -/
theorem ipv6_host :
    readLocation asciiTables "dc=x:[::1]:389".toList = .ok ([[⟨"dc".toList, "x".toList⟩]], ⟨some "[".toList, some (.text ":1]:389".toList)⟩) ∧
    readLocation asciiTables "dc=x:::1".toList = .ok ([[⟨"dc".toList, "x".toList⟩]], ⟨some [], some (.text ":1".toList)⟩) :=
  ⟨by decide +kernel, by decide +kernel⟩

/-- A base that ends in a backslash, or has a backslash before what is no number, is not refused with a message. -/
theorem other_error : readLocation asciiTables "dc=x\\:host".toList = .error (.py .indexError) ∧
    readLocation asciiTables "dc=x\\az:host".toList = .error (.py .valueError) ∧
    readLocation asciiTables "x:host".toList = .error .usage := ⟨by decide +kernel, by decide +kernel, by decide +kernel⟩

/-- An option with an empty host and a port connects to the host with the empty name; a section with an empty host and the
same port asks the DNS. -/
theorem empty_host (hash : Str → Int) :
    (∃ l, toolOverride asciiTables hash ["dc=x:".toList ++ ":389".toList] ⟨[], none, none⟩ [[⟨"dc".toList, "x".toList⟩]] = .ok (some l) ∧
      isQueryNeeded (some l) = false ∧ l.host = some []) ∧
    (∃ l, toolOverride asciiTables hash [] ⟨[⟨"service-location dc=x".toList, some [], some "389".toList⟩], none, none⟩ [[⟨"dc".toList, "x".toList⟩]]
      = .ok (some l) ∧ isQueryNeeded (some l) = true ∧ l.host = none) := by
  have k : Dn.eq asciiTables [[⟨"dc".toList, "x".toList⟩]] [[⟨"dc".toList, "x".toList⟩]] = true := by decide +kernel
  constructor
  · refine ⟨⟨some [], some (.text "389".toList)⟩, ?_, rfl, rfl⟩
    have e : readLocation asciiTables ("dc=x:".toList ++ ":389".toList) = .ok ([[⟨"dc".toList, "x".toList⟩]], ⟨some [], some (.text "389".toList)⟩) := by
      decide +kernel
    simp only [toolOverride, optAll, optServiceLocation, e, getOverrides, loadOverrides, bind, Except.bind, pure, Except.pure, init,
      Option.getD_some, build, update, List.foldl_cons, List.foldl_nil, dictSet, findOverRide, dictGet, List.find?_cons]
    simp only [k, and_self, decide_true, Option.map_some]
  · refine ⟨⟨none, some (.text "389".toList)⟩, ?_, rfl, rfl⟩
    have e : readSection asciiTables ⟨"service-location dc=x".toList, some [], some "389".toList⟩ =
        .ok (some ([[⟨"dc".toList, "x".toList⟩]], ⟨none, some (.text "389".toList)⟩)) := by decide +kernel
    simp only [toolOverride, optAll, e, getOverrides, loadOverrides, bind, Except.bind, pure, Except.pure, init,
      Option.getD_some, build, update, List.foldl_nil, dictSet, findOverRide, dictGet, List.find?_cons]
    simp only [k, and_self, decide_true, Option.map_some]

/-- The white space around a base is dropped even if it is escaped: what is left cannot be read, and then no tool gets to
connect to any server. -/
theorem escaped_blank (hash : Str → Int) (f : File) (d : Dn) (h : Option Str) (p : Option Str)
    (hf : ⟨"service-location dc=x\\ ".toList, h, p⟩ ∈ f.sections) (options : List Str) :
    Dn.parse asciiTables "dc=x\\ ".toList = .ok [[⟨"dc".toList, "x ".toList⟩]] ∧ ∀ r, toolOverride asciiTables hash options f d ≠ .ok r := by
  refine ⟨by decide +kernel, fun r hr => ?_⟩
  have named : asciiTables.lower "service-location dc=x\\ ".toList = "service-location ".toList ++ "dc=x\\ ".toList := by decide +kernel
  obtain ⟨_, h2⟩ := (starts_iff asciiTables hash options f d).mp ⟨r, hr⟩
  obtain ⟨item, base, _, _, ht, hp, _⟩ := h2 _ hf ⟨"dc=x\\ ".toList, named⟩
  have := trimmed_unique _ ht
  have e : strip asciiTables ("service-location dc=x\\ ".toList.drop "service-location ".length) = "dc=x\\".toList := by decide +kernel
  rw [this] at hp
  simp only at hp
  rw [e] at hp
  rw [show Dn.parse asciiTables "dc=x\\".toList = .error .indexError by decide +kernel] at hp
  cases hp

/-! ### Examples -/

/-- An option for `dc=x` and a section for `ou=a,dc=x`. -/
def exFile : File := ⟨[⟨"samba".toList, none, none⟩, ⟨"Service-Location  ou=a,dc=x ".toList, some "near".toList, some []⟩], none, some "ou=p".toList⟩

example : FileSays asciiTables exFile.sections [([[⟨"ou".toList, "a".toList⟩], [⟨"dc".toList, "x".toList⟩]], ⟨some "near".toList, none⟩)] ∧
    List.Forall₂ (OptionSays asciiTables) ["dc=x:far:389".toList] [([[⟨"dc".toList, "x".toList⟩]], ⟨some "far".toList, some (.text "389".toList)⟩)] := by
  constructor
  · refine .other (fun h => ?_) (.one ?_ ?_ .nil)
    · rw [named_iff] at h
      exact absurd h (by decide +kernel)
    · rw [named_iff]; decide +kernel
    · have h := (readSection_named asciiTables ⟨"Service-Location  ou=a,dc=x ".toList, some "near".toList, some []⟩
        ((named_iff ..).mpr (by decide +kernel))
        (some ([[⟨"ou".toList, "a".toList⟩], [⟨"dc".toList, "x".toList⟩]], ⟨some "near".toList, none⟩))).mp (by decide +kernel)
      obtain ⟨item, e, h⟩ := h
      cases e; exact h
  · exact .cons ((read_iff ..).mp (by decide +kernel)) .nil

example : getIdentityBaseDN exFile ⟨some [], [], none, none⟩ = some (.text "ou=p".toList) := by decide +kernel

example : getIdentityBaseDN ⟨[], some "dc=x".toList, none⟩ ⟨none, [], none, none⟩ = some (.text "dc=x".toList) := by decide +kernel

example : postFd (some "3".toList) = .ok (some (3 : Int)) ∧ postFd (some "x".toList) = .error .usage ∧ postBind (some []) = .error .usage ∧
    postBase (some []) = .ok () := by decide +kernel

example : Dn.Good [[⟨"dc".toList, "x".toList⟩]] ∧ ':' ∉ Dn.text [[⟨"dc".toList, "x".toList⟩]] :=
  ⟨Dn.parse_good (U := asciiTables) (s := "dc=x".toList) (by decide +kernel), by decide +kernel⟩

/-- A DN with a colon. -/
example : Dn.Good [[⟨"cn".toList, "a:b".toList⟩], [⟨"dc".toList, "x".toList⟩]] ∧ ':' ∈ Dn.text [[⟨"cn".toList, "a:b".toList⟩], [⟨"dc".toList, "x".toList⟩]] :=
  ⟨Dn.parse_good (U := asciiTables) (s := "cn=a:b,dc=x".toList) (by decide +kernel), by decide +kernel⟩

end Verif.C106
