import Verif.Lemmas.LdifEntry
/-
C29  Entries survive LDIF serialisation.
-/
namespace Verif.C29
open Verif.Ldif Verif.Spec
open Verif.Server (ascii Env)

/-- An entry with legal names and no overlong line is written, and read back, whatever octets its values are made of and
however the text arrives: one entry, the same DN and values, no exception. -/
theorem entry_roundtrip (env : Env) (hU : Sane env.U) (e : Entry) (he : Writable e) :
    ∃ text, toWire env e = .ok text ∧
      (ShortLines text → ∀ chunks : List Bytes, chunks.flatten = text →
        ∃ e', parse env.U false chunks = ([.entry e'], none) ∧ Reads e e') := by
  obtain ⟨w, h1, h2, h3⟩ := wireItems_ok hU he
  refine ⟨unlines (entryLines e w), ?_, ?_⟩
  · simp only [toWire, h1, bind, Except.bind, pure, Except.pure, asLDIF_eq]; rfl
  · intro hs chunks hc
    have hr := receive_entryLines (U := env.U) (p := start false) ⟨.inl rfl, rfl, rfl, rfl⟩ rfl (good he) h2
    refine ⟨_, ?_, reads_back (U := env.U) h3⟩
    unfold parse
    rw [feed_lines hr (entryLines_noNewline h2) hs hc]
    rfl

/-- The texts of several entries. -/
def written (env : Env) : List Entry → Py (List (PyStr × Verif.Attrs))
  | [] => .ok []
  | e :: es => do
    let w ← wireItems env e
    let r ← written env es
    return (.text e.dn.text, w) :: r

theorem receive_many {U : Unicode} {p : Parser} (hp : Ready p) (hd : p.isDelta = false) (l : List (Entry × Verif.Attrs))
    (hl : ∀ x ∈ l, x.1.dn.Good ∧ ∀ q ∈ x.2, LdifName q.1.toBytes) (hm : p.mode = .waitForDn) :
    receive U p (l.flatMap fun x => entryLines x.1 x.2) =
      .ok { p with got := p.got ++ l.map fun x => .entry ⟨x.1.dn, read U (pairs x.2)⟩ } := by
  induction l generalizing p with
  | nil => simp [receive]
  | cons x l ih =>
    obtain ⟨h1, h2⟩ := hl x List.mem_cons_self
    rw [List.flatMap_cons, receive_append, receive_entryLines hp hd h1 h2]
    simp only [Except.bind]
    rw [ih (p := { p with mode := .waitForDn, got := p.got ++ [.entry ⟨x.1.dn, read U (pairs x.2)⟩] }) ⟨.inr rfl, hp.dn, hp.data, hp.last⟩ hd (fun y hy => hl y (List.mem_cons_of_mem _ hy)) rfl]
    simp [hm]

/-- The same for a whole file with its header, any number of entries: they come back in order. -/
theorem file_roundtrip (env : Env) (hU : Sane env.U) (es : List Entry) (he : ∀ e ∈ es, Writable e) :
    ∃ objects, written env es = .ok objects ∧
      (ShortLines (manyAsLDIF objects) → ∀ chunks : List Bytes, chunks.flatten = manyAsLDIF objects →
        ∃ es', parse env.U false chunks = (es'.map .entry, none) ∧ es'.length = es.length ∧
          ∀ x ∈ es.zip es', Reads x.1 x.2) := by
  have key : ∃ l : List (Entry × Verif.Attrs), l.map (·.1) = es ∧
      written env es = .ok (l.map fun x => (.text x.1.dn.text, x.2)) ∧
      ∀ x ∈ l, (x.1.dn.Good ∧ ∀ q ∈ x.2, LdifName q.1.toBytes) ∧ ∀ a v, Under x.2 a v ↔ Under x.1.attrs a v := by
    induction es with
    | nil => exact ⟨[], rfl, rfl, by simp⟩
    | cons e es ih =>
      obtain ⟨w, h1, h2, h3⟩ := wireItems_ok hU (he e List.mem_cons_self)
      obtain ⟨l, i1, i2, i3⟩ := ih fun e h => he e (List.mem_cons_of_mem _ h)
      refine ⟨(e, w) :: l, by simp [i1], by simp [written, h1, i2, bind, Except.bind, pure, Except.pure], ?_⟩
      intro x hx
      rcases List.mem_cons.mp hx with rfl | hx
      · exact ⟨⟨good (he e List.mem_cons_self), h2⟩, h3⟩
      · exact i3 x hx
  obtain ⟨l, k1, k2, k3⟩ := key
  refine ⟨_, k2, ?_⟩
  have htext : manyAsLDIF (l.map fun x => (PyStr.text x.1.dn.text, x.2)) =
      unlines ([ascii "version: 1", []] ++ l.flatMap fun x => entryLines x.1 x.2) := by
    have hh : Ldif.header = unlines [ascii "version: 1", []] := by decide +kernel
    rw [unlines_append, manyAsLDIF, ← hh]
    refine congrArg (Ldif.header ++ ·) ?_
    simp only [List.flatMap_map, unlines, List.flatMap_assoc]
    refine congrArg (l.flatMap ·) ?_
    funext x
    exact asLDIF_eq _ _
  rw [htext]
  intro hs chunks hc
  have hn : ∀ y ∈ [ascii "version: 1", []] ++ l.flatMap fun x => entryLines x.1 x.2, 10 ∉ y := by
    intro y hy
    rcases List.mem_append.mp hy with hy | hy
    · exact (by decide +kernel : ∀ y ∈ [ascii "version: 1", []], 10 ∉ y) y hy
    · obtain ⟨x, hx, hy⟩ := List.mem_flatMap.mp hy
      exact entryLines_noNewline (k3 x hx).1.2 y hy
  have hv : receive env.U (start false) [ascii "version: 1", []] = .ok { start false with mode := .waitForDn, version := some 1 } := by
    have hp : parseLine (ascii "version: 1") = .ok (ascii "version", [49]) := by decide +kernel
    have hi : readInt [49] = some 1 := by decide +kernel
    have hf : Fresh (ascii "version: 1") := ⟨by decide +kernel, by decide +kernel⟩
    have hk : [35].isPrefixOf (ascii "version: 1") = false := by decide +kernel
    have := receive_paragraph (U := env.U) (p := start false) rfl (ls := [ascii "version: 1"]) (by simpa using hf)
    rw [List.singleton_append] at this
    rw [this]
    generalize ascii "version: 1" = v at hp hk
    simp [logicals, logicalLine, hk, start, stateHeader, hp, hi, bind, Except.bind, Except.map, state, stateWaitForDn, withLast]
  have hr : receive env.U (start false) ([ascii "version: 1", []] ++ l.flatMap fun x => entryLines x.1 x.2) =
      .ok { start false with
        mode := .waitForDn, version := some 1, got := l.map fun x => .entry ⟨x.1.dn, read env.U (pairs x.2)⟩ } := by
    rw [receive_append, hv]
    simp only [Except.bind]
    rw [receive_many ⟨.inr rfl, rfl, rfl, rfl⟩ rfl l (fun x hx => (k3 x hx).1) rfl]
    rfl
  refine ⟨l.map fun x => ⟨x.1.dn, read env.U (pairs x.2)⟩, ?_, ?_, ?_⟩
  · unfold parse
    rw [feed_lines hr hn hs hc]
    simp [connectionLost]
  · rw [← k1]; simp
  · rw [← k1, List.zip_map']
    intro x hx
    obtain ⟨y, hy, rfl⟩ := List.mem_map.mp hx
    exact reads_back (k3 y hy).2

/-- An entry with every kind of awkward value: empty, leading and trailing space, colon, `<`, `#`, newline, octets outside
ASCII; the DN contains a newline. -/
def awkward : Entry :=
  ⟨[[⟨"cn".toList, "a\n".toList⟩], [⟨"dc".toList, " é,".toList⟩]],
    [(.text "objectClass".toList, [.text "top".toList, .text "person".toList]),
     (.bytes (ascii "cn"), [.bytes [], .bytes [32], .bytes [97, 32], .bytes [58], .bytes [60, 97], .bytes [35], .bytes [10, 10], .bytes [200]]),
     (.text "sn".toList, [.text "é".toList])]⟩

example : Writable awkward := by
  refine ⟨⟨?_, ?_⟩, ?_, ?_, by decide +kernel, by decide +kernel⟩
  · intro k vs h
    simp only [awkward, List.mem_cons, List.not_mem_nil, or_false, Prod.mk.injEq] at h
    rcases h with ⟨rfl, _⟩ | ⟨rfl, _⟩ | ⟨rfl, _⟩ <;> decide +kernel
  · simp [awkward, SameName]; decide +kernel
  · intro k vs h
    simp only [awkward, List.mem_cons, List.not_mem_nil, or_false, Prod.mk.injEq] at h
    rcases h with ⟨rfl, _⟩ | ⟨rfl, _⟩ | ⟨rfl, _⟩ <;>
      exact ⟨by decide +kernel, by decide +kernel, by decide +kernel, by decide +kernel⟩
  · intro k vs h
    simp only [awkward, List.mem_cons, List.not_mem_nil, or_false, Prod.mk.injEq] at h
    rcases h with ⟨_, rfl⟩ | ⟨_, rfl⟩ | ⟨_, rfl⟩ <;> simp [OneKind, PyStr.isText]

theorem short {t : Bytes} (h : t.length ≤ 16384) : ShortLines t := by
  rintro a l c rfl _
  simp only [List.length_append] at h
  omega

/-- Its text has no overlong line. -/
example : ∃ t, toWire ⟨asciiTables, fun b => b, true, true⟩ awkward = .ok t ∧ ShortLines t := by
  have h : (toWire ⟨asciiTables, fun b => b, true, true⟩ awkward).toOption.all (fun t => t.length ≤ 16384) = true ∧
      (toWire ⟨asciiTables, fun b => b, true, true⟩ awkward).toOption.isSome = true := by decide +kernel
  cases e : toWire ⟨asciiTables, fun b => b, true, true⟩ awkward with
  | error x => rw [e] at h; cases h.2
  | ok t =>
    rw [e] at h
    exact ⟨t, rfl, short (by simpa [Except.toOption] using h.1)⟩

/-- One condition is forced by the code: values of both Python types cannot be sorted. -/
theorem mixed_kinds_raise : toWire ⟨asciiTables, fun b => b, true, true⟩
    ⟨[[⟨"cn".toList, "a".toList⟩]], [(.bytes (ascii "cn"), [.bytes [97], .text ['b']])]⟩ = .error .typeError := by decide +kernel

end Verif.C29
