import Verif.Lemmas.Ldif
import Verif.Lemmas.Base64
import Verif.Lemmas.Utf8
import Verif.Lemmas.ServerSearch
import Verif.Spec.Ldif
/-
Reading what was written.
-/
namespace Verif.Ldif
open Verif.Spec Verif.Tree
open Verif.Server (ascii Env)

/-! Lines one after the other. -/

/-- Lines given to `lineReceived`. -/
def receive (U : Unicode) (p : Parser) : List Bytes → Except Err Parser
  | [] => .ok p
  | l :: ls => do
    let p ← lineReceived U p l
    receive U p ls

/-- Lines given to `logicalLineReceived`. -/
def logicals (U : Unicode) (p : Parser) : List Bytes → Except Err Parser
  | [] => .ok p
  | l :: ls => do
    let p ← logicalLine U p l
    logicals U p ls

theorem receive_append (U : Unicode) (p : Parser) (ls ms : List Bytes) :
    receive U p (ls ++ ms) = (receive U p ls).bind fun q => receive U q ms := by
  induction ls generalizing p with
  | nil => rfl
  | cons l ls ih =>
    simp only [List.cons_append, receive, bind, Except.bind]
    cases lineReceived U p l with
    | error e => rfl
    | ok p => exact ih p

theorem logicals_append (U : Unicode) (p : Parser) (ls ms : List Bytes) :
    logicals U p (ls ++ ms) = (logicals U p ls).bind fun q => logicals U q ms := by
  induction ls generalizing p with
  | nil => rfl
  | cons l ls ih =>
    simp only [List.cons_append, logicals, bind, Except.bind]
    cases logicalLine U p l with
    | error e => rfl
    | ok p => exact ih p

/-- The parser with another pending line. -/
def withLast (x : Option Bytes) (p : Parser) : Parser := { p with lastLine := x }

theorem logicalLine_withLast (U : Unicode) (p : Parser) (x : Option Bytes) (l : Bytes) :
    logicalLine U (withLast x p) l = (logicalLine U p l).map (withLast x) := by
  obtain ⟨isDelta, mode, dn, data, last, version, mods, spec, got⟩ := p
  have hstate : ∀ mode, state U (withLast x ⟨isDelta, mode, dn, data, last, version, mods, spec, got⟩) l =
      (state U ⟨isDelta, mode, dn, data, last, version, mods, spec, got⟩ l).map (withLast x) := by
    intro mode
    cases mode <;> simp only [state, withLast]
    · rfl
    · simp only [stateWaitForDn]
      split
      · rfl
      · split
        · rfl
        · cases parseLine l with
          | error e => rfl
          | ok kv => simp only; split <;> rfl
    · simp only [stateInEntry]
      cases dn <;> cases data <;> simp only [Except.map]
      split
      · cases makeEntry U _ _ <;> rfl
      · cases parseLine l <;> rfl
    · simp only [stateWaitForChangetype]
      split
      · rfl
      · split
        · rfl
        · cases parseLine l with
          | error e => rfl
          | ok kv =>
            simp only
            split
            · rfl
            · split
              · rfl
              · split
                · rfl
                · split
                  · rfl
                  · split <;> rfl
    · simp only [stateWaitForModSpec]
      split
      · cases dn with
        | none => rfl
        | some dn => simp only; cases Server.readDn U _ <;> rfl
      · cases parseLine l with
        | error e => rfl
        | ok kv => simp only; cases modKind kv.1 <;> rfl
    · simp only [stateInModSpec]
      cases spec with
      | none => rfl
      | some s =>
        simp only
        split
        · rfl
        · split
          · rfl
          · cases parseLine l with
            | error e => rfl
            | ok kv => simp only; split <;> rfl
    · simp only [stateInAddEntry]
      cases dn <;> cases data <;> simp only [Except.map]
      split
      · split
        · rfl
        · cases makeEntry U _ _ <;> rfl
      · cases parseLine l <;> rfl
    · simp only [stateInDelete]
      cases dn with
      | none => rfl
      | some dn =>
        simp only
        split
        · cases Server.readDn U _ <;> rfl
        · rfl
  unfold logicalLine
  split
  · rfl
  · have e : (withLast x ⟨isDelta, mode, dn, data, last, version, mods, spec, got⟩).mode = mode := rfl
    rw [e]
    split
    · unfold stateHeader
      cases parseLine l with
      | error e => rfl
      | ok kv =>
        simp only
        split
        · exact hstate .waitForDn
        · cases readInt kv.2 with
          | none => rfl
          | some v => simp only; split <;> rfl
    · exact hstate mode

theorem logicals_withLast (U : Unicode) (p : Parser) (x : Option Bytes) (ls : List Bytes) :
    logicals U (withLast x p) ls = (logicals U p ls).map (withLast x) := by
  induction ls generalizing p with
  | nil => rfl
  | cons l ls ih =>
    simp only [logicals, logicalLine_withLast, bind, Except.bind]
    cases logicalLine U p l with
    | error e => rfl
    | ok p => exact ih p

/-- A line that starts something new. -/
structure Fresh (l : Bytes) : Prop where
  nonempty : l ≠ []
  space : l.head? ≠ some 32

/-- What becomes of the pending line. -/
def flush (U : Unicode) (p : Parser) : Except Err Parser :=
  match p.lastLine with
  | none => .ok p
  | some l => logicalLine U p l

theorem lineReceived_fresh {U : Unicode} {p : Parser} {l : Bytes} (h : Fresh l) :
    lineReceived U p l = (flush U p).map (withLast (some l)) := by
  unfold lineReceived flush
  cases l with
  | nil => exact absurd rfl h.nonempty
  | cons b r =>
    have hb : b ≠ 32 := fun e => h.space (by simp [e])
    cases p.lastLine with
    | none =>
      split
      · rename_i h _; cases h; exact absurd rfl hb
      · rename_i h h'; cases h'
      · rfl
    | some x =>
      split
      · rename_i h h'; cases h'
      · rename_i h h'; cases h; exact absurd rfl hb
      · simp only [bind, Except.bind]
        cases logicalLine U p x <;> rfl

theorem lineReceived_blank {U : Unicode} {p : Parser} :
    lineReceived U p [] = ((flush U p).bind fun p => logicalLine U p []).map (withLast none) := by
  have key : ∀ q : Parser, (logicalLine U { q with lastLine := some [] } []).bind (fun p => .ok { p with lastLine := none }) =
      (logicalLine U q []).map (withLast none) := by
    intro q
    have := logicalLine_withLast U q (some []) []
    simp only [withLast] at this
    rw [this]
    cases logicalLine U q [] <;> rfl
  unfold lineReceived flush
  cases hl : p.lastLine with
  | none => exact key p
  | some l =>
    simp only [bind, Except.bind]
    cases logicalLine U p l with
    | error e => rfl
    | ok q => exact key q

theorem receive_pending {U : Unicode} {p : Parser} {ls : List Bytes} (h : ∀ l ∈ ls, Fresh l) (x : Bytes) :
    receive U (withLast (some x) p) (ls ++ [[]]) = (logicals U p (x :: ls ++ [[]])).map (withLast none) := by
  induction ls generalizing p x with
  | nil =>
    simp only [List.nil_append, receive, lineReceived_blank, withLast, flush]
    simp only [List.cons_append, List.nil_append, logicals, bind, Except.bind]
    have := logicalLine_withLast U p (some x) x
    simp only [withLast] at this
    rw [this]
    cases logicalLine U p x with
    | error e => rfl
    | ok q =>
      simp only [Except.map]
      rw [logicalLine_withLast U q (some x) []]
      cases logicalLine U q [] <;> rfl
  | cons l ls ih =>
    simp only [List.cons_append, receive, bind, Except.bind]
    rw [lineReceived_fresh (h l List.mem_cons_self)]
    simp only [withLast, flush]
    have := logicalLine_withLast U p (some x) x
    simp only [withLast] at this
    rw [this, logicals]
    simp only [bind, Except.bind]
    cases logicalLine U p x with
    | error e => rfl
    | ok q =>
      simp only [Except.map]
      exact ih (fun l hl => h l (List.mem_cons_of_mem _ hl)) (p := q) l

/-- A paragraph: lines that start something new, and a blank line. -/
theorem receive_paragraph {U : Unicode} {p : Parser} (hp : p.lastLine = none) {ls : List Bytes} (h : ∀ l ∈ ls, Fresh l) :
    receive U p (ls ++ [[]]) = (logicals U p (ls ++ [[]])).map (withLast none) := by
  cases ls with
  | nil =>
    simp only [List.nil_append, receive, logicals, bind, Except.bind, lineReceived_blank, flush, hp]
    cases logicalLine U p [] <;> rfl
  | cons l ls =>
    simp only [List.cons_append, receive, bind, Except.bind]
    rw [lineReceived_fresh (h l List.mem_cons_self), flush, hp]
    exact receive_pending (fun l hl => h l (List.mem_cons_of_mem _ hl)) l

theorem drain_receive {U : Unicode} {rest : Bytes} {p q : Parser} {ls : List Bytes} (hr : receive U p ls = .ok q)
    (hl : ∀ l ∈ ls, l.length ≤ maxLength) (hrest : rest.length ≤ maxLength) : drain U rest p ls = ⟨q, rest, none⟩ := by
  induction ls generalizing p with
  | nil => cases hr; rw [drain, if_neg (by omega)]
  | cons l ls ih =>
    have h1 := hl l List.mem_cons_self
    rw [drain, if_neg (by omega)]
    simp only [receive, bind, Except.bind] at hr
    cases he : lineReceived U p l with
    | error e => rw [he] at hr; cases hr
    | ok p' =>
      rw [he] at hr
      exact ih hr fun l hl' => hl l (List.mem_cons_of_mem _ hl')

/-- A text of complete lines. -/
def unlines (ls : List Bytes) : Bytes := ls.flatMap (· ++ [10])

theorem cut_unlines {ls : List Bytes} (h : ∀ l ∈ ls, 10 ∉ l) : cut (unlines ls) = (ls, []) := by
  induction ls with
  | nil => rfl
  | cons l ls ih =>
    have : unlines (l :: ls) = l ++ 10 :: unlines ls := by simp [unlines]
    rw [this, cut_line (h l List.mem_cons_self), ih fun l hl => h l (List.mem_cons_of_mem _ hl)]

theorem unlines_append (ls ms : List Bytes) : unlines (ls ++ ms) = unlines ls ++ unlines ms := by simp [unlines]

theorem short_lines {ls : List Bytes} (h : ShortLines (unlines ls)) (hn : ∀ l ∈ ls, 10 ∉ l) : ∀ l ∈ ls, l.length ≤ maxLength := by
  intro l hl
  obtain ⟨a, b, rfl⟩ := List.append_of_mem hl
  refine h (unlines a) l (10 :: unlines b) ?_ (hn l hl)
  rw [unlines_append]
  simp [unlines]

/-! Attribute lines. -/

/-- The line of an attribute, without its newline. -/
def lineOf (a v : Bytes) : Bytes :=
  if needsBase64 v then a ++ [58, 58, 32] ++ Base64.encode v else a ++ [58, 32] ++ v

theorem attributeAsLDIF_eq (a v : PyStr) : attributeAsLDIF a v = lineOf a.toBytes v.toBytes ++ [10] := by
  unfold attributeAsLDIF lineOf
  split
  · rw [Base64.ldifEncode_eq]; simp
  · simp

theorem needsBase64_false {v : Bytes} (h : needsBase64 v = false) : 10 ∉ v ∧ 13 ∉ v ∧ v.head? ≠ some 32 ∧ v.getLast? ≠ some 32 := by
  simp only [needsBase64, Bool.or_eq_false_iff, containsNonprintable, List.any_eq_false] at h
  refine ⟨fun hm => ?_, fun hm => ?_, fun hm => ?_, fun hm => ?_⟩
  · exact absurd (h.2 10 hm) (by decide)
  · exact absurd (h.2 13 hm) (by decide)
  · cases v with
    | nil => cases hm
    | cons b v => simp at hm; subst hm; simp at h
  · have := h.1.2
    obtain ⟨ys, rfl⟩ := List.getLast?_eq_some_iff.mp hm
    simp [List.isSuffixOf] at this

theorem lineOf_noNewline {a : Bytes} (h : 10 ∉ a) (v : Bytes) : 10 ∉ lineOf a v := by
  unfold lineOf
  split
  · have := Base64.encode_noNewline v
    simp only [List.mem_append, not_or]
    exact ⟨⟨h, by decide⟩, fun hm => this _ hm rfl⟩
  · rename_i hv
    have := (needsBase64_false (v := v) (by simpa using hv)).1
    simp only [List.mem_append, not_or]
    exact ⟨⟨h, by decide⟩, this⟩

theorem lineOf_head (a v : Bytes) : (lineOf a v).head? = a.head? ∨ (lineOf a v).head? = some 58 := by
  unfold lineOf
  cases a with
  | nil => right; split <;> rfl
  | cons b a => left; split <;> rfl

theorem lineOf_fresh {a : Bytes} (h : LdifName a) (v : Bytes) : Fresh (lineOf a v) := by
  constructor
  · unfold lineOf; split <;> simp
  · rcases lineOf_head a v with e | e <;> rw [e]
    · exact h.space
    · decide

theorem lineOf_notComment {a : Bytes} (h : LdifName a) (v : Bytes) : [35].isPrefixOf (lineOf a v) = false := by
  have : (lineOf a v).head? ≠ some 35 := by
    rcases lineOf_head a v with e | e <;> rw [e]
    · exact h.hash
    · decide
  cases hl : lineOf a v with
  | nil => rfl
  | cons b l => rw [hl] at this; simp at this; simp [List.isPrefixOf]; exact Ne.symm this

theorem splitColon_append {a : Bytes} (h : 58 ∉ a) (r : Bytes) : splitColon (a ++ 58 :: r) = some (a, r) := by
  induction a with
  | nil => simp [splitColon]
  | cons b a ih =>
    simp only [List.mem_cons, not_or] at h
    rw [List.cons_append, splitColon, if_neg (fun e => h.1 e.symm), ih h.2]

theorem lstrip_id {v : Bytes} (h : v.head? ≠ some 32) : lstrip v = v := by
  cases v with
  | nil => rfl
  | cons b v =>
    simp only [lstrip, List.dropWhile_cons]
    rw [if_neg]
    simp only [List.head?_cons, ne_eq, Option.some.injEq] at h
    simpa using h

theorem lstrip_space (v : Bytes) : lstrip (32 :: v) = lstrip v := by simp [lstrip]

theorem decode_encode (v : Bytes) : Base64.decodebytes (Base64.encode v) = .ok v := by
  unfold Base64.decodebytes
  rw [Base64.decodeLoop_encode]; rfl

theorem encode_head (v : Bytes) : (Base64.encode v).head? ≠ some 32 := by
  intro h
  have hm : (32 : UInt8) ∈ Base64.encode v := List.mem_of_head? h
  rcases Base64.encode_alphabet v 32 hm with ⟨n, hn, e⟩ | e
  · exact absurd e.symm ((by decide : ∀ n, n < 64 → Base64.digit n ≠ 32) n hn)
  · exact absurd e (by decide)

theorem parseLine_lineOf {a : Bytes} (h : 58 ∉ a) (v : Bytes) : parseLine (lineOf a v) = .ok (a, v) := by
  unfold parseLine lineOf
  by_cases hv : needsBase64 v = true
  · rw [if_pos hv]
    have e : a ++ [58, 58, 32] ++ Base64.encode v = a ++ 58 :: (58 :: 32 :: Base64.encode v) := by simp
    rw [e, splitColon_append h]
    simp only [parseValue]
    rw [lstrip_space, lstrip_id (encode_head v), decode_encode]
    rfl
  · rw [if_neg hv]
    have e : a ++ [58, 32] ++ v = a ++ 58 :: (32 :: v) := by simp
    rw [e, splitColon_append h]
    have e' : parseValue (32 :: v) = .ok (lstrip (32 :: v)) := rfl
    simp only [e']
    rw [lstrip_space, lstrip_id (needsBase64_false (by simpa using hv)).2.2.1]

theorem logicalLine_attribute {U : Unicode} {p : Parser} {dn : Bytes} {data : List (Bytes × List Bytes)}
    (hm : p.mode = .inEntry ∨ p.mode = .inAddEntry) (hd : p.dn = some dn) (ha : p.data = some data) {a : Bytes} (h : LdifName a) (v : Bytes) :
    logicalLine U p (lineOf a v) = .ok { p with data := some (append a v data) } := by
  have hne := (lineOf_fresh h v).nonempty
  unfold logicalLine
  rw [if_neg (by rw [lineOf_notComment h]; decide)]
  rcases hm with hm | hm
  · rw [if_neg (by rw [hm]; decide)]
    simp only [state, hm, stateInEntry, hd, ha, if_neg hne, parseLine_lineOf h.colon]
  · rw [if_neg (by rw [hm]; decide)]
    simp only [state, hm, stateInAddEntry, hd, ha, if_neg hne, parseLine_lineOf h.colon]

/-- The dictionary built from lines. -/
def gather (l : List (Bytes × Bytes)) (data : List (Bytes × List Bytes)) : List (Bytes × List Bytes) :=
  l.foldl (fun d p => append p.1 p.2 d) data

theorem logicals_attributes {U : Unicode} {p : Parser} {dn : Bytes} {data : List (Bytes × List Bytes)}
    (hm : p.mode = .inEntry ∨ p.mode = .inAddEntry) (hd : p.dn = some dn) (ha : p.data = some data) {l : List (Bytes × Bytes)}
    (h : ∀ x ∈ l, LdifName x.1) :
    logicals U p (l.map fun x => lineOf x.1 x.2) = .ok { p with data := some (gather l data) } := by
  induction l generalizing p data with
  | nil => simp [logicals, gather, ← ha]
  | cons x l ih =>
    rw [List.map_cons, logicals, logicalLine_attribute hm hd ha (h x List.mem_cons_self) x.2]
    simp only [bind, Except.bind]
    rw [ih (p := { p with data := some (append x.1 x.2 data) }) hm hd rfl fun y hy => h y (List.mem_cons_of_mem _ hy)]
    rfl

end Verif.Ldif
