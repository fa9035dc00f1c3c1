import Verif.Lemmas.LdifEntry
/-
Facts about the change records of Model/Ldif.lean.
-/
namespace Verif.Ldif
open Verif.Spec
open Verif.Server (ascii Env)

theorem dnName : LdifName (ascii "dn") :=
  ⟨by decide +kernel, by decide +kernel, by decide +kernel, by decide +kernel⟩

theorem changeName : LdifName (ascii "changetype") :=
  ⟨by decide +kernel, by decide +kernel, by decide +kernel, by decide +kernel⟩

theorem dnLine (t : Bytes) : DnLine (lineOf (ascii "dn") t) t := by
  have e : ascii "dn" = [100, 110] := by decide +kernel
  exact ⟨by rw [parseLine_lineOf dnName.colon, e], lineOf_fresh dnName t, lineOf_notComment dnName t, lineOf_noNewline dnName.newline t⟩

/-- After the DN of a change record. -/
theorem logicalLine_change {U : Unicode} {p : Parser} (hm : p.mode = .waitForChangetype) {t : Bytes} {data : List (Bytes × List Bytes)}
    (hd : p.dn = some t) (ha : p.data = some data) (v : Bytes) :
    logicalLine U p (lineOf (ascii "changetype") v) =
      if v = ascii "modify" then .ok { p with modifications := [], mode := .waitForModSpec }
      else if v = ascii "add" then .ok { p with mode := .inAddEntry }
      else if v = ascii "delete" then .ok { p with mode := .inDelete }
      else if v = ascii "modrdn" ∨ v = ascii "moddn" then .error .notImplemented
      else .error .unknownChangeType := by
  unfold logicalLine
  rw [if_neg (by rw [lineOf_notComment changeName]; decide), if_neg (by rw [hm]; decide)]
  simp only [state, hm, stateWaitForChangetype, hd, ha, Option.isNone_some, Bool.or_self, Bool.false_eq_true, if_false,
    if_neg (lineOf_fresh changeName v).nonempty, parseLine_lineOf changeName.colon]
  rw [if_neg (by simp)]

theorem kindName (k : ModKind) : LdifName (modName k).toBytes ∧ modKind (modName k).toBytes = some k := by
  cases k <;> exact ⟨⟨by decide +kernel, by decide +kernel, by decide +kernel, by decide +kernel⟩, by decide +kernel⟩

/-- The lines of a modification. -/
def modLines (k : ModKind) (a : Bytes) (vs : List Bytes) : List Bytes :=
  lineOf (modName k).toBytes a :: vs.map (lineOf a) ++ [[45]]

theorem logicals_values {U : Unicode} {p : Parser} {k : ModKind} {a : Bytes} {data vs : List Bytes} (hm : p.mode = .inModSpec)
    (hs : p.spec = some (k, a, data)) (ha : vs ≠ [] → LdifName a) :
    logicals U p (vs.map (lineOf a)) = .ok { p with spec := some (k, a, data ++ vs) } := by
  induction vs generalizing p data with
  | nil => simp [logicals, ← hs]
  | cons v vs ih =>
    have hn := ha (by simp)
    have h1 : logicalLine U p (lineOf a v) = .ok { p with spec := some (k, a, data ++ [v]) } := by
      unfold logicalLine
      rw [if_neg (by rw [lineOf_notComment hn]; decide), if_neg (by rw [hm]; decide)]
      have hd : lineOf a v ≠ [45] := by
        intro h
        have : parseLine (lineOf a v) = .ok (a, v) := parseLine_lineOf hn.colon v
        rw [h] at this
        have e : parseLine [45] = .error .withoutSemicolon := by decide +kernel
        rw [e] at this; cases this
      simp only [state, hm, stateInModSpec, hs, if_neg (lineOf_fresh hn v).nonempty, if_neg hd, parseLine_lineOf hn.colon]
      rw [if_neg (by simp)]
    rw [List.map_cons, logicals, h1]
    simp only [bind, Except.bind]
    rw [ih (p := { p with spec := some (k, a, data ++ [v]) }) hm rfl fun _ => hn]
    simp

theorem logicals_mod {U : Unicode} {p : Parser} (hm : p.mode = .waitForModSpec) (k : ModKind) (a : Bytes) (vs : List Bytes)
    (ha : vs ≠ [] → LdifName a) :
    logicals U p (modLines k a vs) =
      .ok { p with spec := none, modifications := p.modifications ++ [⟨k, .bytes a, mkSet (vs.map PyStr.bytes)⟩] } := by
  obtain ⟨h1, h2⟩ := kindName k
  have e1 : logicalLine U p (lineOf (modName k).toBytes a) = .ok { p with spec := some (k, a, []), mode := .inModSpec } := by
    unfold logicalLine
    rw [if_neg (by rw [lineOf_notComment h1]; decide), if_neg (by rw [hm]; decide)]
    simp only [state, hm, stateWaitForModSpec, if_neg (lineOf_fresh h1 a).nonempty, parseLine_lineOf h1.colon, h2]
  unfold modLines
  rw [List.cons_append, logicals, e1]
  simp only [bind, Except.bind]
  rw [logicals_append, logicals_values (p := { p with spec := some (k, a, []), mode := .inModSpec }) rfl rfl ha]
  simp only [Except.bind, logicals, logicalLine, state, stateInModSpec, bind, List.nil_append]
  rw [← hm]
  simp [List.isPrefixOf]

theorem modAsLDIF_eq {m : Mod} (h : OneKind m.values) :
    modAsLDIF m = .ok (unlines (modLines m.kind m.key.toBytes ((Delta.sortBytes m.values).map PyStr.toBytes))) := by
  simp only [modAsLDIF, Server.sortValues_ok h, bind, Except.bind, pure, Except.pure, attributeAsLDIF_eq, modLines]
  simp [unlines, List.flatMap_map]

/-- What is read for a modification. -/
def readMod (m : Mod) : Mod :=
  ⟨m.kind, .bytes m.key.toBytes, mkSet (((Delta.sortBytes m.values).map PyStr.toBytes).map PyStr.bytes)⟩

theorem readMod_same (m : Mod) : SameMod m (readMod m) := by
  refine ⟨rfl, rfl, fun v => ?_, Delta.mkSet_nodup _⟩
  simp only [readMod, Delta.mem_mkSet, List.mem_map]
  constructor
  · rintro ⟨_, ⟨w, hw, rfl⟩, rfl⟩
    exact ⟨w, (Delta.sortBytes_perm m.values).mem_iff.mp hw, rfl⟩
  · rintro ⟨w, hw, rfl⟩
    exact ⟨_, ⟨w, (Delta.sortBytes_perm m.values).mem_iff.mpr hw, rfl⟩, rfl⟩

/-- The lines of a list of modifications. -/
def modsLines (ms : List Mod) : List Bytes :=
  ms.flatMap fun m => modLines m.kind m.key.toBytes ((Delta.sortBytes m.values).map PyStr.toBytes)

theorem modsAsLDIF_eq {ms : List Mod} (h : ∀ m ∈ ms, WritableMod m) : modsAsLDIF ms = .ok (unlines (modsLines ms)) := by
  induction ms with
  | nil => rfl
  | cons m ms ih =>
    simp only [modsAsLDIF, modAsLDIF_eq (h m List.mem_cons_self).kinds, ih fun x hx => h x (List.mem_cons_of_mem _ hx), bind,
      Except.bind, pure, Except.pure, modsLines, List.flatMap_cons, unlines_append]

theorem sort_ne {vs : List PyStr} (h : (Delta.sortBytes vs).map PyStr.toBytes ≠ []) : vs ≠ [] := by
  rintro rfl
  exact h rfl

theorem logicals_mods {U : Unicode} {p : Parser} (hm : p.mode = .waitForModSpec) (hs : p.spec = none) {ms : List Mod} (h : ∀ m ∈ ms, WritableMod m) :
    logicals U p (modsLines ms) = .ok { p with modifications := p.modifications ++ ms.map readMod } := by
  induction ms generalizing p with
  | nil => simp [modsLines, logicals]
  | cons m ms ih =>
    have hw := h m List.mem_cons_self
    rw [modsLines, List.flatMap_cons, logicals_append, logicals_mod hm _ _ _ fun hne => hw.name (sort_ne hne)]
    simp only [Except.bind]
    have := ih (p := { p with spec := none, modifications := p.modifications ++ [readMod m] }) hm rfl
      fun x hx => h x (List.mem_cons_of_mem _ hx)
    simp only [modsLines, readMod] at this
    rw [this]
    simp [hs, readMod]

theorem modsLines_fresh {ms : List Mod} (h : ∀ m ∈ ms, WritableMod m) : ∀ l ∈ modsLines ms, Fresh l ∧ 10 ∉ l := by
  intro l hl
  obtain ⟨m, hm, hl⟩ := List.mem_flatMap.mp hl
  have hk := (kindName m.kind).1
  rcases List.mem_append.mp hl with hl | hl
  · rcases List.mem_cons.mp hl with rfl | hl
    · exact ⟨lineOf_fresh hk _, lineOf_noNewline hk.newline _⟩
    · obtain ⟨v, hv, rfl⟩ := List.mem_map.mp hl
      have hn := (h m hm).name (sort_ne (List.ne_nil_of_mem hv))
      exact ⟨lineOf_fresh hn v, lineOf_noNewline hn.newline v⟩
  · rw [List.mem_singleton.mp hl]; exact ⟨⟨by simp, by decide⟩, by decide⟩

theorem goodDn {d : Dn.Dn} (h : PrintableDn d) : d.Good := ⟨h.types, fun h' => h.rdns [] (by rw [h']; exact List.mem_cons_self) rfl⟩

/-- The lines of a modify record. -/
def modifyLines (d : Dn.Dn) (ms : List Mod) : List Bytes :=
  (lineOf (ascii "dn") (Utf8.encode d.text) :: lineOf (ascii "changetype") (ascii "modify") :: modsLines ms) ++ [[]]

theorem modifyAsLDIF_eq (d : Dn.Dn) {ms : List Mod} (h : ∀ m ∈ ms, WritableMod m) :
    modifyAsLDIF d ms = .ok (unlines (modifyLines d ms)) := by
  simp only [modifyAsLDIF, modsAsLDIF_eq h, bind, Except.bind, pure, Except.pure, attributeAsLDIF_eq, modifyLines, unlines,
    List.cons_append, List.flatMap_cons, List.flatMap_append, List.append_assoc, List.flatMap_nil, List.append_nil, List.nil_append]
  rfl

theorem receive_modify {U : Unicode} {p : Parser} (hp : Ready p) (hd : p.isDelta = true) (hs : p.spec = none) {d : Dn.Dn} (hg : PrintableDn d)
    {ms : List Mod} (h : ∀ m ∈ ms, WritableMod m) :
    receive U p (modifyLines d ms) =
      .ok { p with mode := .waitForDn, modifications := [], got := p.got ++ [.modify d (ms.map readMod)] } := by
  have hl := dnLine (Utf8.encode d.text)
  rw [modifyLines, receive_paragraph hp.last]
  · rw [List.cons_append, logicals, logicalLine_dn hp hl, hd]
    simp only [bind, Except.bind, if_true]
    rw [List.cons_append, logicals, logicalLine_change rfl rfl rfl, if_pos rfl]
    simp only [bind, Except.bind]
    generalize hq : ({ p with isDelta := true, mode := .waitForModSpec, dn := some (Utf8.encode d.text), data := some [], modifications := [] } : Parser) = q
    have hm := logicals_mods (U := U) (p := q) (by rw [← hq]) (by rw [← hq]; exact hs) h
    rw [logicals_append, hm, ← hq]
    simp only [Except.bind, logicals, logicalLine, state, stateWaitForModSpec, readDn_text (goodDn hg), bind]
    have hn := hp.dn
    have ha := hp.data
    have ht := hp.last
    obtain ⟨a1, a2, a3, a4, a5, a6, a7, a8, a9⟩ := p
    simp only at hn ha ht
    subst hn ha ht
    rfl
  · intro y hy
    rcases List.mem_cons.mp hy with rfl | hy
    · exact hl.fresh
    · rcases List.mem_cons.mp hy with rfl | hy
      · exact lineOf_fresh changeName _
      · exact (modsLines_fresh h y hy).1

/-- The lines of a delete record. -/
def deleteLines (d : Dn.Dn) : List Bytes :=
  [lineOf (ascii "dn") (Utf8.encode d.text), lineOf (ascii "changetype") (ascii "delete")] ++ [[]]

theorem deleteAsLDIF_eq (d : Dn.Dn) : deleteAsLDIF d = unlines (deleteLines d) := by
  simp only [deleteAsLDIF, attributeAsLDIF_eq, deleteLines, unlines, List.cons_append, List.flatMap_cons, List.append_assoc,
    List.flatMap_nil, List.append_nil, List.nil_append]
  rfl

theorem receive_delete {U : Unicode} {p : Parser} (hp : Ready p) (hd : p.isDelta = true) {d : Dn.Dn} (hg : PrintableDn d) :
    receive U p (deleteLines d) = .ok { p with mode := .waitForDn, got := p.got ++ [.delete d] } := by
  have hl := dnLine (Utf8.encode d.text)
  rw [deleteLines, receive_paragraph hp.last]
  · rw [List.cons_append, logicals, logicalLine_dn hp hl, hd]
    simp only [bind, Except.bind, if_true]
    rw [List.cons_append, logicals, logicalLine_change rfl rfl rfl, if_neg (by decide +kernel), if_neg (by decide +kernel), if_pos rfl]
    simp only [List.nil_append, logicals, logicalLine, state, stateInDelete, readDn_text (goodDn hg), bind, Except.bind]
    have hn := hp.dn
    have ha := hp.data
    have ht := hp.last
    obtain ⟨a1, a2, a3, a4, a5, a6, a7, a8, a9⟩ := p
    simp only at hn ha ht
    subst hn ha ht
    rfl
  · intro y hy
    simp only [List.mem_cons, List.not_mem_nil, or_false] at hy
    rcases hy with rfl | rfl
    · exact hl.fresh
    · exact lineOf_fresh changeName _

/-! Add records. -/

theorem splitLines_line {l : Bytes} (h : 10 ∉ l ∧ 13 ∉ l) (acc r : Bytes) :
    splitLines acc false (l ++ 10 :: r) = (acc ++ l) :: splitLines [] false r := by
  induction l generalizing acc with
  | nil => simp [splitLines]
  | cons b l ih =>
    simp only [List.mem_cons, not_or] at h
    rw [List.cons_append, splitLines, if_neg (fun e => h.1.1 e.symm), if_neg (fun e => h.2.1 e.symm), ih ⟨h.1.2, h.2.2⟩]
    simp

theorem splitLines_unlines {ls : List Bytes} (h : ∀ l ∈ ls, 10 ∉ l ∧ 13 ∉ l) : splitLines [] false (unlines ls) = ls := by
  induction ls with
  | nil => rfl
  | cons l ls ih =>
    have e : unlines (l :: ls) = l ++ 10 :: unlines ls := by simp [unlines]
    rw [e, splitLines_line (h l List.mem_cons_self), ih fun y hy => h y (List.mem_cons_of_mem _ hy), List.nil_append]

theorem encode_noReturn (v : Bytes) : 13 ∉ Base64.encode v := by
  intro h
  rcases Base64.encode_alphabet v 13 h with ⟨n, hn, e⟩ | e
  · exact absurd e.symm ((by decide : ∀ n, n < 64 → Base64.digit n ≠ 13) n hn)
  · revert e; decide

theorem lineOf_noReturn {a : Bytes} (h : 13 ∉ a) (v : Bytes) : 13 ∉ lineOf a v := by
  unfold lineOf
  split
  · have := encode_noReturn v
    simp only [List.mem_append, not_or]
    exact ⟨⟨h, by decide⟩, this⟩
  · rename_i hv
    have := (needsBase64_false (by simpa using hv)).2.1
    simp only [List.mem_append, not_or]
    exact ⟨⟨h, by decide⟩, this⟩

theorem dnText_noReturn (d : Dn.Dn) : 13 ∉ Utf8.encode d.text := by
  intro h
  obtain ⟨c, hc, e⟩ := mem_encode h (by decide)
  have := dn_control d c hc
  rw [e] at this
  revert this; decide

/-- The lines of an add record. -/
def addLines (e : Entry) (w : Verif.Attrs) : List Bytes :=
  ((ascii "dn: " ++ Utf8.encode e.dn.text) :: lineOf (ascii "changetype") (ascii "add") :: (pairs w).map fun x => lineOf x.1 x.2) ++ [[]]

theorem addAsLDIF_eq {env : Env} {e : Entry} {w : Verif.Attrs} (h : wireItems env e = .ok w)
    (hw : ∀ p ∈ w, LdifName p.1.toBytes ∧ 13 ∉ p.1.toBytes) : addAsLDIF env e = .ok (unlines (addLines e w)) := by
  have hl : ∀ l ∈ entryLines e w, 10 ∉ l ∧ 13 ∉ l := by
    intro l hl
    refine ⟨entryLines_noNewline (fun p hp => (hw p hp).1) l hl, ?_⟩
    rcases List.mem_append.mp hl with hl | hl
    · rcases List.mem_cons.mp hl with rfl | hl
      · simp only [List.mem_append, not_or]
        exact ⟨by decide +kernel, dnText_noReturn e.dn⟩
      · obtain ⟨x, hx, rfl⟩ := List.mem_map.mp hl
        obtain ⟨p, hp, e1, _⟩ := mem_pairs.mp hx
        exact lineOf_noReturn (e1 ▸ (hw p hp).2) x.2
    · rw [List.mem_singleton.mp hl]; simp
  have ht : toWire env e = .ok (unlines (entryLines e w)) := by
    simp only [toWire, h, bind, Except.bind, pure, Except.pure, asLDIF_eq]; rfl
  have hc : rstripNewlines (attributeAsLDIF (.text "changetype".toList) (.text "add".toList)) =
      lineOf (ascii "changetype") (ascii "add") := by decide +kernel
  have hpre : (ascii "dn:").isPrefixOf (ascii "dn: " ++ Utf8.encode e.dn.text) = true := by
    have e1 : ascii "dn:" = [100, 110, 58] := by decide +kernel
    have e2 : ascii "dn: " = [100, 110, 58, 32] := by decide +kernel
    rw [e1, e2]; rfl
  simp only [addAsLDIF, ht, bind, Except.bind, splitLines_unlines hl, hc]
  simp only [entryLines, List.cons_append, if_pos hpre, addLines, unlines]
  simp [pure, Except.pure, List.flatMap_def]

theorem gather_ne {l : List (Bytes × Bytes)} (h : l ≠ []) : gather l [] ≠ [] := by
  obtain ⟨x, hx⟩ := List.exists_mem_of_ne_nil _ h
  obtain ⟨p, hp, _⟩ := (mem_gather (d := [])).mpr (.inr hx)
  exact List.ne_nil_of_mem hp

theorem receive_add {U : Unicode} {p : Parser} (hp : Ready p) (hd : p.isDelta = true) {e : Entry} (hg : e.dn.Good) {w : Verif.Attrs}
    (hw : ∀ p ∈ w, LdifName p.1.toBytes) :
    receive U p (addLines e w) =
      if pairs w = [] then .error .addMissingAttributes
      else .ok { p with mode := .waitForDn, got := p.got ++ [.add ⟨e.dn, read U (pairs w)⟩] } := by
  have hl := plainDn (ldifDn e.dn)
  have hx : ∀ x ∈ pairs w, LdifName x.1 := by
    intro x hx
    obtain ⟨q, hq, e1, _⟩ := mem_pairs.mp hx
    exact e1 ▸ hw q hq
  rw [addLines, receive_paragraph hp.last]
  · rw [List.cons_append, logicals, logicalLine_dn hp hl, hd]
    simp only [bind, Except.bind, if_true]
    rw [List.cons_append, logicals, logicalLine_change rfl rfl rfl, if_neg (by decide +kernel), if_pos rfl]
    simp only [bind, Except.bind]
    rw [logicals_append, logicals_attributes (.inr rfl) rfl rfl hx]
    simp only [Except.bind, logicals, logicalLine, state, stateInAddEntry, makeEntry, readDn_text hg, bind]
    by_cases h0 : pairs w = []
    · rw [if_pos h0, h0]; rfl
    · rw [if_neg h0]
      have hne := gather_ne h0
      have hn := hp.dn
      have ha := hp.data
      have ht := hp.last
      obtain ⟨a1, a2, a3, a4, a5, a6, a7, a8, a9⟩ := p
      simp only at hn ha ht
      subst hn ha ht
      simp [List.isPrefixOf, hne, Except.map, withLast, read]
  · intro y hy
    rcases List.mem_cons.mp hy with rfl | hy
    · exact hl.fresh
    · rcases List.mem_cons.mp hy with rfl | hy
      · exact lineOf_fresh changeName _
      · obtain ⟨x, hm, rfl⟩ := List.mem_map.mp hy
        exact lineOf_fresh (hx x hm) x.2

end Verif.Ldif
