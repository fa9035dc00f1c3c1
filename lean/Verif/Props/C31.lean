import Verif.Lemmas.LdifEntry
/-
C31  Truncated LDIF input is detected.

The code violates it.  A line is held back until the next one shows that it is not continued, and what is held back when the
input ends is forgotten: an entry of which only the `dn:` line was complete is dropped without an exception.  The parser of
the on-disk tree never looks for truncation.  What does hold: an entry with one more complete line is never dropped silently,
and nothing unfinished is delivered.
-/
namespace Verif.C31
open Verif.Ldif Verif.Spec
open Verif.Server (ascii)

/-- A text that is read without an exception and ends with an empty line. -/
structure Complete (U : Unicode) (d : Bool) (text : Bytes) : Prop where
  fine : (parse U d [text]).2 = none
  ends : ∃ t, text = t ++ [10, 10]

/-- Inside an entry or a change record. -/
def Inside (p : Parser) : Prop := p.mode ≠ .header ∧ p.mode ≠ .waitForDn

theorem lineReceived_empty {U : Unicode} {p q : Parser} (h : lineReceived U p [] = .ok q) : q.lastLine = none := by
  rw [lineReceived_blank] at h
  cases hf : flush U p with
  | error e => rw [hf] at h; cases h
  | ok p' =>
    rw [hf] at h
    simp only [Except.bind] at h
    cases hl : logicalLine U p' [] with
    | error e => rw [hl] at h; cases h
    | ok p'' => rw [hl] at h; cases h; rfl

theorem drain_buffer {U : Unicode} {rest : Bytes} {p q : Parser} {ls : List Bytes} {b : Bytes}
    (h : drain U rest p ls = ⟨q, b, none⟩) : b = rest := by
  induction ls generalizing p with
  | nil =>
    simp only [drain] at h
    split at h
    · cases h
    · cases h; rfl
  | cons l ls ih =>
    simp only [drain] at h
    split at h
    · cases h
    · split at h
      · cases h
      · exact ih h

theorem complete_state {U : Unicode} {d : Bool} {text : Bytes} (h : Complete U d text) :
    ∃ p, dataReceived U (fresh d) text = ⟨p, [], none⟩ ∧ p.mode = .waitForDn ∧ p.lastLine = none ∧
      parse U d [text] = (p.got, none) := by
  obtain ⟨t, rfl⟩ := h.ends
  have hp : parse U d [t ++ [10, 10]] = connectionLost (dataReceived U (fresh d) (t ++ [10, 10])) := rfl
  have e : t ++ [10, 10] = (t ++ [10]) ++ [10] := by simp
  have hf := h.fine
  rw [hp] at hf ⊢
  generalize hr : dataReceived U (fresh d) (t ++ [10, 10]) = r at hf ⊢
  obtain ⟨p, b, x⟩ := r
  cases x with
  | some x => cases hf
  | none =>
    have hm : p.mode = .waitForDn := by
      refine Classical.byContradiction fun hne => ?_
      simp only [connectionLost] at hf
      rw [if_neg hne] at hf
      cases hf
    rw [e, ← dataReceived_append] at hr
    have hc : (cut (t ++ [10])).2 = [] := by
      rw [cut_append]
      have := cut_line (cut_rest t) []
      rw [this]; rfl
    cases hr1 : dataReceived U (fresh d) (t ++ [10]) with
    | mk p1 b1 x1 =>
      rw [hr1] at hr
      cases x1 with
      | some x1 => cases hr
      | none =>
        have hb : b1 = [] := by
          simp only [dataReceived, fresh, List.nil_append, hc] at hr1
          exact drain_buffer hr1
        subst hb
        have e1 : dataReceived U ⟨p1, [], none⟩ [10] = drain U [] p1 [[]] := rfl
        rw [e1] at hr
        have hb := drain_buffer hr
        subst hb
        refine ⟨p, rfl, hm, ?_, ?_⟩
        · simp only [drain] at hr
          split at hr
          · cases hr
          · split at hr
            · cases hr
            · rename_i hl
              split at hr
              · cases hr
              · cases hr; exact lineReceived_empty hl
        · simp [connectionLost, hm]

/-- An entry, or change record, of which only the first line has arrived (with its newline) is dropped without an exception:
the result is as if the input had ended before it. -/
theorem dropped_silently (U : Unicode) (d : Bool) (text : Bytes) (h : Complete U d text) (line rest : Bytes)
    (hl : line ≠ [] ∧ line.head? ≠ some 32 ∧ 10 ∉ line ∧ line.length ≤ 16384) (hr : 10 ∉ rest ∧ rest.length ≤ 16384) :
    parse U d [text ++ line ++ [10] ++ rest] = parse U d [text] := by
  obtain ⟨p, h1, h2, h3, h4⟩ := complete_state h
  rw [h4]
  have e : parse U d [text ++ line ++ [10] ++ rest] =
      connectionLost (dataReceived U (dataReceived U (fresh d) text) (line ++ 10 :: rest)) := by
    rw [dataReceived_append]; simp [parse, feed]
  rw [e, h1]
  have e2 : dataReceived U ⟨p, [], none⟩ (line ++ 10 :: rest) = drain U rest p [line] := by
    simp only [dataReceived, List.nil_append, cut_line hl.2.2.1, cut_noNewline hr.1]
  rw [e2]
  have hm : maxLength = 16384 := rfl
  simp only [drain]
  rw [if_neg (by omega), lineReceived_fresh ⟨hl.1, hl.2.1⟩]
  simp only [flush, h3, Except.map]
  rw [if_neg (by omega)]
  simp [connectionLost, withLast, h2]

/-- The same for a first line that is not complete. -/
theorem dropped_silently_unfinished (U : Unicode) (d : Bool) (text : Bytes) (h : Complete U d text) (rest : Bytes)
    (hr : 10 ∉ rest ∧ rest.length ≤ 16384) : parse U d [text ++ rest] = parse U d [text] := by
  obtain ⟨p, h1, h2, h3, h4⟩ := complete_state h
  rw [h4]
  have e : parse U d [text ++ rest] = connectionLost (dataReceived U (dataReceived U (fresh d) text) rest) := by
    rw [dataReceived_append]; simp [parse, feed]
  rw [e, h1]
  have hm : maxLength = 16384 := rfl
  simp only [dataReceived, List.nil_append, cut_noNewline hr.1, drain]
  rw [if_neg (by omega)]
  simp [connectionLost, h2]

/-! What is detected. -/

theorem state_inside {U : Unicode} {p q : Parser} {l : Bytes} (hp : p.mode ≠ .header) (hl : l ≠ []) (h : state U p l = .ok q) :
    Inside q ∧ q.got = p.got := by
  unfold state at h
  split at h
  · rename_i hm; exact absurd hm hp
  · unfold stateWaitForDn at h
    split at h
    · cases h
    · split at h
      · cases h
      · split at h
        · cases h
          refine ⟨?_, rfl⟩
          unfold Inside
          simp only
          split <;> decide
        · cases h
  all_goals
    rename_i hm
    simp only [stateInEntry, stateWaitForChangetype, stateWaitForModSpec, stateInModSpec, stateInAddEntry, stateInDelete, if_neg hl] at h
    repeat' split at h
    all_goals first
      | (cases h; done)
      | (cases h; exact ⟨by simp_all [Inside], rfl⟩)

theorem logicalLine_inside {U : Unicode} {p q : Parser} {l : Bytes} (hp : p.mode ≠ .header) (hl : l ≠ []) (hc : l.head? ≠ some 35 ∨ Inside p)
    (h : logicalLine U p l = .ok q) : Inside q ∧ q.got = p.got := by
  unfold logicalLine at h
  split at h
  · rename_i hk
    rcases hc with hc | hc
    · cases l with
      | nil => cases hk
      | cons x l => simp [List.isPrefixOf] at hk; exact absurd (by simp [hk]) hc
    · cases h; exact ⟨hc, rfl⟩
  · exact state_inside hp hl h

/-- The first line of an entry is held back, or the parser is inside the entry. -/
structure Started (p : Parser) (g : List Record) : Prop where
  held : ∃ x, p.lastLine = some x ∧ x ≠ [] ∧ (p.mode = .waitForDn ∧ x.head? ≠ some 35 ∨ Inside p)
  got : p.got = g

theorem lineReceived_started {U : Unicode} {p q : Parser} {g : List Record} {l : Bytes} (hp : Started p g) (hl : l ≠ [])
    (h : lineReceived U p l = .ok q) : Started q g ∧ (Inside p ∨ l.head? ≠ some 32 → Inside q) := by
  obtain ⟨⟨x, h1, h2, h3⟩, h4⟩ := hp
  by_cases hs : l.head? = some 32
  · obtain ⟨r, rfl⟩ : ∃ r, l = 32 :: r := by
      cases l with
      | nil => exact absurd rfl hl
      | cons b r => simp only [List.head?_cons, Option.some.injEq] at hs; exact ⟨r, by rw [hs]⟩
    have e : lineReceived U p (32 :: r) = .ok { p with lastLine := some (x ++ r) } := by
      unfold lineReceived
      rw [h1]
      rfl
    rw [e] at h
    cases h
    refine ⟨⟨⟨x ++ r, rfl, by simp [h2], ?_⟩, h4⟩, ?_⟩
    · rcases h3 with ⟨hm, hx⟩ | h3
      · refine .inl ⟨hm, ?_⟩
        cases x with
        | nil => exact absurd rfl h2
        | cons b x => simpa using hx
      · exact .inr h3
    · rintro (h | h)
      · exact h
      · exact absurd rfl h
  · rw [lineReceived_fresh ⟨hl, hs⟩] at h
    simp only [flush, h1] at h
    cases he : logicalLine U p x with
    | error e => rw [he] at h; cases h
    | ok p' =>
      rw [he] at h
      cases h
      have hh : p.mode ≠ .header := by
        rcases h3 with ⟨hm, _⟩ | h3
        · rw [hm]; decide
        · exact h3.1
      have := logicalLine_inside hh h2 (h3.imp (·.2) id) he
      exact ⟨⟨⟨l, rfl, hl, .inr this.1⟩, this.2.trans h4⟩, fun _ => this.1⟩

theorem drain_started {U : Unicode} {rest : Bytes} {p : Parser} {g : List Record} {ls : List Bytes} (hp : Started p g)
    (hl : ∀ l ∈ ls, l ≠ []) (hx : Inside p ∨ ∃ l ∈ ls, l.head? ≠ some 32) :
    (drain U rest p ls).parser.got = g ∧ ((drain U rest p ls).raised ≠ none ∨ Inside (drain U rest p ls).parser) := by
  induction ls generalizing p with
  | nil =>
    simp only [drain]
    split
    · exact ⟨hp.got, .inl (by simp)⟩
    · refine ⟨hp.got, .inr ?_⟩
      rcases hx with h | ⟨l, hl, _⟩
      · exact h
      · cases hl
  | cons l ls ih =>
    simp only [drain]
    split
    · exact ⟨hp.got, .inl (by simp)⟩
    · split
      · exact ⟨hp.got, .inl (by simp)⟩
      · rename_i q hq
        obtain ⟨s1, s2⟩ := lineReceived_started hp (hl l List.mem_cons_self) hq
        refine ih s1 (fun y hy => hl y (List.mem_cons_of_mem _ hy)) ?_
        rcases hx with h | ⟨y, hy, hn⟩
        · exact .inl (s2 (.inl h))
        · rcases List.mem_cons.mp hy with rfl | hy
          · exact .inl (s2 (.inr hn))
          · exact .inr ⟨y, hy, hn⟩

theorem drain_first {U : Unicode} {rest : Bytes} {p : Parser} (h2 : p.mode = .waitForDn) (h3 : p.lastLine = none) {line : Bytes}
    {lines : List Bytes} (hf : Fresh line) (hc : line.head? ≠ some 35) (hls : ∀ l ∈ lines, l ≠ [])
    (hx : ∃ l ∈ lines, l.head? ≠ some 32) : (drain U rest p (line :: lines)).parser.got = p.got ∧
      ((drain U rest p (line :: lines)).raised ≠ none ∨ Inside (drain U rest p (line :: lines)).parser) := by
  simp only [drain]
  split
  · exact ⟨rfl, .inl (by simp)⟩
  · rw [lineReceived_fresh hf]
    simp only [flush, h3, Except.map]
    exact drain_started ⟨⟨line, rfl, hf.nonempty, .inl ⟨h2, hc⟩⟩, rfl⟩ hls (.inr hx)

/-- An entry of which more than the first line has arrived - a further complete line that does not continue the first - but not
the empty line that ends it: an exception is raised, and what was delivered is what was delivered before it. -/
theorem detected_partial (U : Unicode) (d : Bool) (text : Bytes) (h : Complete U d text) (line : Bytes) (lines : List Bytes)
    (rest : Bytes) (hl : line ≠ [] ∧ line.head? ≠ some 32 ∧ line.head? ≠ some 35 ∧ 10 ∉ line)
    (hls : ∀ l ∈ lines, l ≠ [] ∧ 10 ∉ l) (hx : ∃ l ∈ lines, l.head? ≠ some 32) (hr : 10 ∉ rest) :
    (parse U d [text ++ (line :: lines).flatMap (· ++ [10]) ++ rest]).2 ≠ none ∧
      (parse U d [text ++ (line :: lines).flatMap (· ++ [10]) ++ rest]).1 = (parse U d [text]).1 := by
  obtain ⟨p, h1, h2, h3, h4⟩ := complete_state h
  rw [h4]
  have e : parse U d [text ++ (line :: lines).flatMap (· ++ [10]) ++ rest] =
      connectionLost (dataReceived U (dataReceived U (fresh d) text) (unlines (line :: lines) ++ rest)) := by
    rw [dataReceived_append]; simp [parse, feed, unlines]
  rw [e, h1]
  have hn : ∀ l ∈ line :: lines, 10 ∉ l := by
    intro l hm
    rcases List.mem_cons.mp hm with rfl | hm
    · exact hl.2.2.2
    · exact (hls l hm).2
  have e2 : dataReceived U ⟨p, [], none⟩ (unlines (line :: lines) ++ rest) = drain U rest p (line :: lines) := by
    simp only [dataReceived, List.nil_append]
    rw [cut_append, cut_unlines hn, List.nil_append, cut_noNewline hr, List.append_nil]
  rw [e2]
  have key := drain_first (U := U) (rest := rest) h2 h3 ⟨hl.1, hl.2.1⟩ hl.2.2.1 (fun l hm => (hls l hm).1) hx
  generalize drain U rest p (line :: lines) = r at key
  obtain ⟨q, b, x⟩ := r
  cases x with
  | some x => exact ⟨by simp [connectionLost], by simpa [connectionLost] using key.1⟩
  | none =>
    rcases key.2 with hk | hk
    · exact absurd rfl hk
    · exact ⟨by simp only [connectionLost]; rw [if_neg hk.2]; simp, key.1⟩

/-- Between entries there is no DN and no data. -/
structure Idle (d : Bool) (p : Parser) : Prop where
  kind : p.isDelta = d
  idle : p.mode = .header ∨ p.mode = .waitForDn → p.dn = none ∧ p.data = none

theorem state_idle {U : Unicode} {d : Bool} {p q : Parser} {l : Bytes} (hp : Idle d p) (h : state U p l = .ok q) : Idle d q := by
  obtain ⟨h1, h2⟩ := hp
  unfold state at h
  split at h
  · cases h
  all_goals
    rename_i hm
    simp only [stateWaitForDn, stateInEntry, stateWaitForChangetype, stateWaitForModSpec, stateInModSpec, stateInAddEntry, stateInDelete] at h
    repeat' split at h
    all_goals first
      | (cases h; done)
      | (cases h; exact ⟨h1, h2⟩)
      | (cases h; refine ⟨h1, ?_⟩; simp; done)
      | (cases h; refine ⟨h1, ?_⟩; simp [hm]; done)
      | (cases h; refine ⟨h1, ?_⟩; simp only; split <;> simp)

theorem logicalLine_idle {U : Unicode} {d : Bool} {p q : Parser} {l : Bytes} (hp : Idle d p) (h : logicalLine U p l = .ok q) :
    Idle d q := by
  unfold logicalLine at h
  split at h
  · cases h; exact hp
  · split at h
    · rename_i hm
      have hi := hp.idle (.inl hm)
      unfold stateHeader at h
      split at h
      · cases h
      · split at h
        · exact state_idle (p := { p with mode := .waitForDn }) ⟨hp.kind, fun _ => hi⟩ h
        · split at h
          · cases h
          · split at h
            · cases h
            · cases h; exact ⟨hp.kind, fun _ => hi⟩
    · exact state_idle hp h

theorem lineReceived_idle {U : Unicode} {d : Bool} {p q : Parser} {l : Bytes} (hp : Idle d p) (h : lineReceived U p l = .ok q) :
    Idle d q := by
  have hflush : ∀ p', flush U p = .ok p' → Idle d p' := by
    intro p' hf
    unfold flush at hf
    split at hf
    · cases hf; exact hp
    · exact logicalLine_idle hp hf
  by_cases hl : l = []
  · subst hl
    rw [lineReceived_blank] at h
    cases hf : flush U p with
    | error e => rw [hf] at h; cases h
    | ok p' =>
      rw [hf] at h
      simp only [Except.bind] at h
      cases hg : logicalLine U p' [] with
      | error e => rw [hg] at h; cases h
      | ok q' =>
        rw [hg] at h
        cases h
        have := logicalLine_idle (hflush _ hf) hg
        exact ⟨this.kind, this.idle⟩
  · by_cases hs : l.head? = some 32
    · obtain ⟨r, rfl⟩ : ∃ r, l = 32 :: r := by
        cases l with
        | nil => exact absurd rfl hl
        | cons b r => simp only [List.head?_cons, Option.some.injEq] at hs; exact ⟨r, by rw [hs]⟩
      cases hx : p.lastLine with
      | none =>
        have e : lineReceived U p (32 :: r) = .error .startsWithSpace := by unfold lineReceived; rw [hx]; rfl
        rw [e] at h; cases h
      | some x =>
        have e : lineReceived U p (32 :: r) = .ok { p with lastLine := some (x ++ r) } := by unfold lineReceived; rw [hx]; rfl
        rw [e] at h; cases h
        exact ⟨hp.kind, hp.idle⟩
    · rw [lineReceived_fresh ⟨hl, hs⟩] at h
      cases hf : flush U p with
      | error e => rw [hf] at h; cases h
      | ok p' =>
        rw [hf] at h
        cases h
        exact ⟨(hflush _ hf).kind, (hflush _ hf).idle⟩

theorem drain_idle {U : Unicode} {d : Bool} {rest : Bytes} {p : Parser} {ls : List Bytes} (hp : Idle d p) :
    Idle d (drain U rest p ls).parser := by
  induction ls generalizing p with
  | nil =>
    simp only [drain]
    split <;> exact hp
  | cons l ls ih =>
    simp only [drain]
    split
    · exact hp
    · split
      · exact hp
      · rename_i q hq
        exact ih (lineReceived_idle hp hq)

theorem idle_complete {U : Unicode} {d : Bool} {text : Bytes} {p : Parser}
    (h : dataReceived U (fresh d) text = ⟨p, [], none⟩) : Idle d p := by
  have := drain_idle (U := U) (d := d) (rest := (cut text).2) (p := start d) (ls := (cut text).1) ⟨rfl, fun _ => ⟨rfl, rfl⟩⟩
  have e : dataReceived U (fresh d) text = drain U (cut text).2 (start d) (cut text).1 := rfl
  rw [← e, h] at this
  exact this

theorem cut_unlines_rest (x : Bytes) : x = unlines (cut x).1 ++ (cut x).2 := by
  induction x with
  | nil => rfl
  | cons b x ih =>
    rw [cut]
    split
    · rename_i hb
      subst hb
      simp only [unlines, List.flatMap_cons, List.nil_append, List.cons_append, List.cons.injEq, true_and]
      exact ih
    · cases hc : cut x with
      | mk ls rest =>
        rw [hc] at ih
        cases ls with
        | nil => simpa [unlines] using ih
        | cons l ls => simpa [unlines] using ih

theorem count_unlines {ls : List Bytes} (h : ∀ l ∈ ls, 10 ∉ l) : (unlines ls).count 10 = ls.length := by
  induction ls with
  | nil => rfl
  | cons l ls ih =>
    have h1 := h l List.mem_cons_self
    have h2 := ih fun y hy => h y (List.mem_cons_of_mem _ hy)
    rw [unlines] at h2 ⊢
    simp only [List.flatMap_cons, List.count_append, List.count_eq_zero.mpr h1, h2, List.length_cons]
    simp
    omega

/-- Every cut point of an entry as the library writes it, after a complete text: the cut is reported exactly if the first two
lines are complete. -/
theorem cut_points (env : Server.Env) (hU : Sane env.U) (text : Bytes) (h : Complete env.U false text) (e : Entry)
    (he : Writable e) (w : Bytes) (hw : toWire env e = .ok w) (hs : ShortLines w) (x y : Bytes) (hxy : w = x ++ y) (hy : y ≠ []) :
    parse env.U false [text ++ x] = ((parse env.U false [text]).1, if x.count 10 < 2 then none else some .truncated) := by
  obtain ⟨a, h1, h2, h3⟩ := wireItems_ok hU he
  have hw' : w = unlines (entryLines e a) := by
    simp only [toWire, h1, bind, Except.bind, pure, Except.pure, asLDIF_eq] at hw
    exact (Except.ok.inj hw).symm
  have hn := entryLines_noNewline (e := e) h2
  have hc : cut w = (entryLines e a, []) := by rw [hw', cut_unlines hn]
  have hcx := cut_append x y
  rw [← hxy, hc] at hcx
  have hx := cut_unlines_rest x
  have hrest := cut_rest x
  generalize (cut x).1 = ls at hcx hx
  generalize (cut x).2 = rest at hcx hx hrest
  obtain ⟨hL, hR⟩ := Prod.mk.inj hcx
  have hne : (cut (rest ++ y)).1 ≠ [] := by
    intro h0
    have := cut_unlines_rest (rest ++ y)
    rw [h0, ← hR] at this
    simp only [unlines, List.flatMap_nil, List.append_nil, List.append_eq_nil_iff] at this
    exact hy this.2
  have hls : ∀ l ∈ ls, 10 ∉ l := fun l hl => hn l (by rw [hL]; exact List.mem_append_left _ hl)
  have hcount : x.count 10 = ls.length := by
    rw [hx, List.count_append, count_unlines hls, List.count_eq_zero.mpr hrest, Nat.add_zero]
  have hshort : ∀ l, (∃ u v, x = u ++ l ++ v) → 10 ∉ l → l.length ≤ 16384 := by
    rintro l ⟨u, v, e'⟩ hl
    exact hs u l (v ++ y) (by rw [hxy, e']; simp) hl
  have hrl : rest.length ≤ 16384 := hshort rest ⟨unlines ls, [], by rw [hx]; simp⟩ hrest
  have hpre : ∃ t, (ascii "dn: " ++ Utf8.encode e.dn.text) :: (pairs a).map (fun z => lineOf z.1 z.2) = ls ++ t := by
    refine ⟨(cut (rest ++ y)).1.dropLast, ?_⟩
    rw [← List.dropLast_concat_getLast hne, ← List.append_assoc] at hL
    exact (List.append_inj' hL rfl).1
  obtain ⟨t, ht⟩ := hpre
  have hd := plainDn (ldifDn e.dn)
  cases ls with
  | nil =>
    have : x = rest := by rw [hx]; rfl
    rw [this, dropped_silently_unfinished env.U false text h rest ⟨hrest, hrl⟩, List.count_eq_zero.mpr hrest, if_pos (by decide), ← h.fine]
  | cons l1 ls =>
    rw [List.cons_append, List.cons.injEq] at ht
    obtain ⟨rfl, ht⟩ := ht
    generalize ascii "dn: " ++ Utf8.encode e.dn.text = dnl at *
    cases ls with
    | nil =>
      have e1 : text ++ x = text ++ dnl ++ [10] ++ rest := by rw [hx]; simp [unlines]
      have hl1 : dnl.length ≤ 16384 := hshort dnl ⟨[], 10 :: rest, by rw [hx]; simp [unlines]⟩ hd.noNewline
      rw [e1, dropped_silently env.U false text h dnl rest ⟨hd.fresh.nonempty, hd.fresh.space, hd.noNewline, hl1⟩ ⟨hrest, hrl⟩,
        hcount, if_pos (by simp), ← h.fine]
    | cons l2 ls =>
      rw [hcount, if_neg (by simp)]
      obtain ⟨p, s1, s2, s3, s4⟩ := complete_state h
      have hfresh : ∀ l ∈ l2 :: ls, Fresh l := by
        intro l hl
        have : l ∈ (pairs a).map (fun z => lineOf z.1 z.2) := by rw [ht]; exact List.mem_append_left _ hl
        obtain ⟨z, hz, rfl⟩ := List.mem_map.mp this
        obtain ⟨q, hq, e1, _⟩ := mem_pairs.mp hz
        exact lineOf_fresh (e1 ▸ h2 q hq) z.2
      have key := drain_first (U := env.U) (rest := rest) s2 s3 hd.fresh (by
        intro h0
        have := hd.noComment
        cases dnl with
        | nil => cases h0
        | cons b r => simp only [List.head?_cons, Option.some.injEq] at h0; subst h0; cases this)
        (fun l hl => (hfresh l hl).nonempty) ⟨l2, List.mem_cons_self, (hfresh l2 List.mem_cons_self).space⟩
      have hi := (idle_complete s1).idle (.inr s2)
      have hr := receive_entryLines (U := env.U) (p := p) ⟨.inr s2, hi.1, hi.2, s3⟩ (idle_complete s1).kind (good he) h2
      rw [hL, receive_append] at hr
      have hshorts : ∀ l ∈ dnl :: l2 :: ls, l.length ≤ maxLength := by
        refine short_lines ?_ hls
        intro u l v e' hl
        exact hshort l ⟨u, v ++ rest, by rw [hx, e']; simp⟩ hl
      have e1 : parse env.U false [text ++ x] =
          connectionLost (dataReceived env.U (dataReceived env.U (fresh false) text) (unlines (dnl :: l2 :: ls) ++ rest)) := by
        rw [dataReceived_append, hx]; rfl
      have e2 : dataReceived env.U ⟨p, [], none⟩ (unlines (dnl :: l2 :: ls) ++ rest) = drain env.U rest p (dnl :: l2 :: ls) := by
        simp only [dataReceived, List.nil_append]
        rw [cut_append, cut_unlines hls, List.nil_append, cut_noNewline hrest, List.append_nil]
      rw [e1, s1, e2, s4]
      cases hq : receive env.U p (dnl :: l2 :: ls) with
      | error x => rw [hq] at hr; cases hr
      | ok q =>
        have hdr := drain_receive hq hshorts (rest := rest) hrl
        rw [hdr] at key ⊢
        rcases key.2 with hk | hk
        · exact absurd rfl hk
        · simp only [connectionLost, if_neg hk.2]
          rw [key.1]

/-- No input at all is reported as truncated. -/
theorem empty_input (U : Unicode) (d : Bool) : parse U d [] = ([], some .truncated) := rfl

/-- The parser of the on-disk tree does not report it at all: this entry is dropped in the middle. -/
theorem stored_dropped : parseStored asciiTables [ascii "dn: cn=a\ncn: a\nsn: b\n"] = ([], none) := by decide +kernel

example : Complete asciiTables false (ascii "dn: cn=a\ncn: a\n\n") :=
  ⟨by decide +kernel, ascii "dn: cn=a\ncn: a", by decide +kernel⟩

example : (parse asciiTables false [ascii "dn: cn=a\ncn: a\n\n" ++ ascii "dn: cn=b" ++ [10] ++ ascii "cn"]) =
    ([.entry ⟨[[⟨['c','n'], ['a']⟩]], [(.bytes [99, 110], [.bytes [97]])]⟩], none) := by decide +kernel

/-- The hypotheses of `detected_partial` and `cut_points` are met. -/
example : (parse asciiTables false [ascii "dn: cn=a\ncn: a\n\n" ++ [ascii "dn: cn=b", ascii "cn: b"].flatMap (· ++ [10]) ++ []]).2 =
    some .truncated := by decide +kernel

end Verif.C31
