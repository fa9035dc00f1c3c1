import Verif.Lemmas.LdifChange
/-
C32  LDIF change records round-trip.

Two restrictions: an add record needs at least one attribute value (the parser rejects the text otherwise, `add_rejected`),
and names must be fit for LDIF.  Values and DNs are arbitrary.
-/
namespace Verif.C32
open Verif.Ldif Verif.Spec
open Verif.Server (ascii Env)

/-- The text of an operation: `asLDIF()` of delta.py. -/
def text (env : Env) : Record → Py Bytes
  | .entry e => toWire env e
  | .modify dn ms => modifyAsLDIF dn ms
  | .add e => addAsLDIF env e
  | .delete dn => .ok (deleteAsLDIF dn)

/-- The texts of several operations, one after the other. -/
def texts (env : Env) : List Record → Py Bytes
  | [] => .ok []
  | r :: rs => do
    let t ← text env r
    let u ← texts env rs
    return t ++ u

/-- Operations that can be written. -/
inductive Fine : Record → Prop where
  | modify (dn : Dn.Dn) (ms : List Mod) : PrintableDn dn → (∀ m ∈ ms, WritableMod m) → Fine (.modify dn ms)
  | add (e : Entry) : Writable e → (∀ k vs, (k, vs) ∈ e.attrs → 13 ∉ k.toBytes) → (∃ a b, HasValue e a b) → Fine (.add e)
  | delete (dn : Dn.Dn) : PrintableDn dn → Fine (.delete dn)

/-- The same operation, as octets. -/
inductive Same : Record → Record → Prop where
  | modify (dn : Dn.Dn) (ms ms' : List Mod) : ms'.length = ms.length → (∀ x ∈ ms.zip ms', SameMod x.1 x.2) →
      Same (.modify dn ms) (.modify dn ms')
  | add (e e' : Entry) : Reads e e' → Same (.add e) (.add e')
  | delete (dn : Dn.Dn) : Same (.delete dn) (.delete dn)

theorem names_fit {e : Entry} (he : Writable e) (hr : ∀ k vs, (k, vs) ∈ e.attrs → 13 ∉ k.toBytes) {w : Verif.Attrs}
    (h : ∀ p ∈ w, p.1.toBytes = ascii "objectClass" ∨ ∃ vs, (p.1, vs) ∈ e.attrs) :
    ∀ p ∈ w, LdifName p.1.toBytes ∧ 13 ∉ p.1.toBytes := by
  intro p hp
  rcases h p hp with h | ⟨vs, h⟩
  · rw [h]; exact className_fit
  · exact ⟨he.names _ vs h, hr _ vs h⟩

theorem pairs_ne {e : Entry} {w : Verif.Attrs} (hw : ∀ a v, Under w a v ↔ Under e.attrs a v) :
    pairs w ≠ [] ↔ ∃ a b, HasValue e a b := by
  constructor
  · intro h
    obtain ⟨x, hx⟩ := List.exists_mem_of_ne_nil _ h
    obtain ⟨v, hv, e'⟩ := (under_pairs (w := w)).mp ⟨x, hx, rfl, rfl⟩
    exact ⟨_, _, (hasValue_iff (dn := e.dn)).mpr ⟨v, (hw _ v).mp hv, e'⟩⟩
  · rintro ⟨a, b, h⟩
    obtain ⟨v, hv, e'⟩ := (hasValue_iff (dn := e.dn)).mp h
    obtain ⟨x, hx, _⟩ := (under_pairs (w := w)).mpr ⟨v, (hw _ v).mpr hv, e'⟩
    exact List.ne_nil_of_mem hx

theorem record_step {env : Env} (hU : Sane env.U) {r : Record} (hr : Fine r) :
    ∃ ls r', text env r = .ok (unlines ls) ∧ (∀ l ∈ ls, 10 ∉ l) ∧ Same r r' ∧
      ∀ p : Parser, Ready p → p.isDelta = true → p.spec = none →
        ∃ q, receive env.U p ls = .ok q ∧ q.mode = .waitForDn ∧ Ready q ∧ q.isDelta = true ∧ q.spec = none ∧ q.got = p.got ++ [r'] := by
  cases hr with
  | modify dn ms hd hm =>
    refine ⟨modifyLines dn ms, .modify dn (ms.map readMod), modifyAsLDIF_eq dn hm, ?_, .modify _ _ _ (by simp) ?_, ?_⟩
    · intro l hl
      rcases List.mem_append.mp hl with hl | hl
      · rcases List.mem_cons.mp hl with rfl | hl
        · exact (dnLine _).noNewline
        · rcases List.mem_cons.mp hl with rfl | hl
          · exact lineOf_noNewline changeName.newline _
          · exact (modsLines_fresh hm l hl).2
      · rw [List.mem_singleton.mp hl]; simp
    · intro x hx
      have := List.zip_map' (f := id) (g := readMod) (l := ms)
      rw [List.map_id] at this
      rw [this] at hx
      obtain ⟨m, _, rfl⟩ := List.mem_map.mp hx
      exact readMod_same m
    · intro p h1 h2 h3
      exact ⟨_, receive_modify h1 h2 h3 hd hm, rfl, ⟨.inr rfl, h1.dn, h1.data, h1.last⟩, h2, h3, rfl⟩
  | add e he hn hv =>
    obtain ⟨w, h1, h2, h3⟩ := wireItems_full hU he
    have hw := names_fit he hn h2
    refine ⟨addLines e w, .add ⟨e.dn, read env.U (pairs w)⟩, addAsLDIF_eq h1 hw, ?_, .add _ _ (reads_back h3), ?_⟩
    · intro l hl
      rcases List.mem_append.mp hl with hl | hl
      · rcases List.mem_cons.mp hl with rfl | hl
        · exact (plainDn (ldifDn e.dn)).noNewline
        · rcases List.mem_cons.mp hl with rfl | hl
          · exact lineOf_noNewline changeName.newline _
          · obtain ⟨x, hx, rfl⟩ := List.mem_map.mp hl
            obtain ⟨p, hp, e1, _⟩ := mem_pairs.mp hx
            exact lineOf_noNewline (e1 ▸ (hw p hp).1.newline) x.2
      · rw [List.mem_singleton.mp hl]; simp
    · intro p k1 k2 k3
      have := receive_add (U := env.U) k1 k2 (good he) fun p hp => (hw p hp).1
      rw [if_neg ((pairs_ne h3).mpr hv)] at this
      exact ⟨_, this, rfl, ⟨.inr rfl, k1.dn, k1.data, k1.last⟩, k2, k3, rfl⟩
  | delete dn hd =>
    refine ⟨deleteLines dn, .delete dn, by rw [text, deleteAsLDIF_eq], ?_, .delete _, ?_⟩
    · intro l hl
      simp only [deleteLines, List.cons_append, List.nil_append, List.mem_cons, List.not_mem_nil, or_false] at hl
      rcases hl with rfl | rfl | rfl
      · exact (dnLine _).noNewline
      · exact lineOf_noNewline changeName.newline _
      · simp
    · intro p h1 h2 h3
      exact ⟨_, receive_delete h1 h2 hd, rfl, ⟨.inr rfl, h1.dn, h1.data, h1.last⟩, h2, h3, rfl⟩

theorem records_step {env : Env} (hU : Sane env.U) (rs : List Record) (hr : ∀ r ∈ rs, Fine r) :
    ∃ ls rs', texts env rs = .ok (unlines ls) ∧ (∀ l ∈ ls, 10 ∉ l) ∧ rs'.length = rs.length ∧ (∀ x ∈ rs.zip rs', Same x.1 x.2) ∧
      ∀ p : Parser, Ready p → p.isDelta = true → p.spec = none →
        ∃ q, receive env.U p ls = .ok q ∧ (rs ≠ [] → q.mode = .waitForDn) ∧ q.got = p.got ++ rs' := by
  induction rs with
  | nil => exact ⟨[], [], rfl, by simp, rfl, by simp, fun p h _ _ => ⟨p, rfl, by simp, by simp⟩⟩
  | cons r rs ih =>
    obtain ⟨ls, r', h1, h2, h3, h4⟩ := record_step hU (hr r List.mem_cons_self)
    obtain ⟨ms, rs', i1, i2, i3, i4, i5⟩ := ih fun x hx => hr x (List.mem_cons_of_mem _ hx)
    refine ⟨ls ++ ms, r' :: rs', ?_, ?_, by simp [i3], ?_, ?_⟩
    · simp only [texts, h1, i1, bind, Except.bind, pure, Except.pure, unlines_append]
    · intro l hl
      rcases List.mem_append.mp hl with hl | hl
      · exact h2 l hl
      · exact i2 l hl
    · intro x hx
      rw [List.zip_cons_cons] at hx
      rcases List.mem_cons.mp hx with rfl | hx
      · exact h3
      · exact i4 x hx
    · intro p k1 k2 k3
      obtain ⟨q, q1, q2, q3, q4, q5, q6⟩ := h4 p k1 k2 k3
      obtain ⟨q', s1, s2, s3⟩ := i5 q q3 q4 q5
      refine ⟨q', by rw [receive_append, q1]; exact s1, fun _ => ?_, by rw [s3, q6]; simp⟩
      cases rs with
      | nil =>
        have : ms = [] := by
          simp only [texts] at i1
          have := Except.ok.inj i1
          cases ms with
          | nil => rfl
          | cons m ms => simp [unlines] at this
        subst this
        cases s1
        exact q2
      | cons _ _ => exact s2 (by simp)

/-- A list of operations is written, and read back as the same operations in the same order, however the text arrives. -/
theorem changes_roundtrip_partial (env : Env) (hU : Sane env.U) (rs : List Record) (hne : rs ≠ []) (hr : ∀ r ∈ rs, Fine r) :
    ∃ t, texts env rs = .ok t ∧
      (ShortLines t → ∀ chunks : List Bytes, chunks.flatten = t →
        ∃ rs', parse env.U true chunks = (rs', none) ∧ rs'.length = rs.length ∧ ∀ x ∈ rs.zip rs', Same x.1 x.2) := by
  obtain ⟨ls, rs', h1, h2, h3, h4, h5⟩ := records_step hU rs hr
  refine ⟨_, h1, fun hs chunks hc => ⟨rs', ?_, h3, h4⟩⟩
  obtain ⟨q, k1, k2, k3⟩ := h5 (start true) ⟨.inl rfl, rfl, rfl, rfl⟩ rfl rfl
  unfold parse
  rw [feed_lines k1 h2 hs hc]
  simp only [connectionLost, k2 hne, if_true, k3]
  rfl

/-- The exception for an add: the record of an entry without any value is written, but rejected by the parser. -/
theorem add_rejected (env : Env) (hU : Sane env.U) (e : Entry) (he : Writable e) (hn : ∀ k vs, (k, vs) ∈ e.attrs → 13 ∉ k.toBytes)
    (hv : ¬ ∃ a b, HasValue e a b) :
    ∃ t, addAsLDIF env e = .ok t ∧ (ShortLines t → parse env.U true [t] = ([], some .addMissingAttributes)) := by
  obtain ⟨w, h1, h2, h3⟩ := wireItems_full hU he
  have hw := names_fit he hn h2
  have h0 : pairs w = [] := Classical.byContradiction fun h => hv ((pairs_ne h3).mp h)
  refine ⟨_, addAsLDIF_eq h1 hw, fun hs => ?_⟩
  have hr := receive_add (U := env.U) (p := start true) ⟨.inl rfl, rfl, rfl, rfl⟩ rfl (good he) fun p hp => (hw p hp).1
  rw [if_pos h0] at hr
  have hl := plainDn (ldifDn e.dn)
  unfold addLines at hr hs ⊢
  rw [h0] at hr hs ⊢
  generalize ascii "dn: " ++ Utf8.encode e.dn.text = dnl at hr hs hl ⊢
  have hct := lineOf_fresh changeName (ascii "add")
  have hcn := lineOf_noNewline changeName.newline (ascii "add")
  generalize lineOf (ascii "changetype") (ascii "add") = ct at hr hs hct hcn ⊢
  rw [List.map_nil] at hr hs ⊢
  have hn : ∀ l ∈ [dnl, ct] ++ [[]], 10 ∉ l := by
    intro l hm
    simp only [List.cons_append, List.nil_append, List.mem_cons, List.not_mem_nil, or_false] at hm
    rcases hm with rfl | rfl | rfl
    · exact hl.noNewline
    · exact hcn
    · simp
  have hsl := short_lines hs hn
  have h2 : receive env.U (start true) [dnl, ct] =
      .ok { start true with mode := .waitForChangetype, dn := some (Utf8.encode e.dn.text), data := some [], lastLine := some ct } := by
    have e1 : lineReceived env.U (start true) dnl = .ok { start true with lastLine := some dnl } := by
      rw [lineReceived_fresh hl.fresh]; rfl
    have e2 : lineReceived env.U { start true with lastLine := some dnl } ct =
        .ok { start true with mode := .waitForChangetype, dn := some (Utf8.encode e.dn.text), data := some [], lastLine := some ct } := by
      rw [lineReceived_fresh hct]
      have := logicalLine_withLast env.U (start true) (some dnl) dnl
      simp only [withLast] at this
      simp only [flush, this, logicalLine_dn (p := start true) ⟨.inl rfl, rfl, rfl, rfl⟩ hl]
      rfl
    simp only [receive, e1, e2, bind, Except.bind]
  rw [receive_append, h2] at hr
  simp only [Except.bind, receive, bind] at hr
  have hd := drain_receive (rest := []) h2 (fun l hm => hsl l (List.mem_append_left _ hm)) (by simp [maxLength])
  have e3 : parse env.U true [unlines ([dnl, ct] ++ [[]])] = connectionLost (drain env.U [] (start true) ([dnl, ct] ++ [[]])) := by
    simp only [parse, feed, List.foldl_cons, List.foldl_nil, dataReceived, fresh, List.nil_append, cut_unlines hn]
  rw [e3, drain_append, hd]
  simp only [drain]
  rw [if_neg (by simp)]
  generalize lineReceived env.U _ [] = z at hr
  cases z with
  | ok z => cases hr
  | error z => cases hr; rfl

/-- A DN, a name and values that all need base64. -/
def sample : List Record :=
  [.modify [[⟨"cn".toList, "é".toList⟩]] [⟨.add, .bytes (ascii "sn"), [.bytes [10], .bytes []]⟩, ⟨.delete, .text "é".toList, []⟩],
   .add ⟨[[⟨"cn".toList, "b".toList⟩]], [(.text "cn".toList, [.text " b".toList])]⟩,
   .delete [[⟨"cn".toList, "a\r\n".toList⟩], [⟨"dc".toList, "x".toList⟩]]]

example : sample ≠ [] ∧ ∀ r ∈ sample, Fine r := by
  refine ⟨by simp [sample], ?_⟩
  intro r hr
  simp only [sample, List.mem_cons, List.not_mem_nil, or_false] at hr
  rcases hr with rfl | rfl | rfl
  · refine .modify _ _ ⟨by decide +kernel, by decide +kernel⟩ ?_
    intro m hm
    simp only [List.mem_cons, List.not_mem_nil, or_false] at hm
    rcases hm with rfl | rfl
    · exact ⟨.inr (by simp [PyStr.isText]), fun _ => ⟨by decide +kernel, by decide +kernel, by decide +kernel, by decide +kernel⟩⟩
    · exact ⟨.inl (by simp), fun h => absurd rfl h⟩
  · refine .add _ ⟨⟨?_, by simp⟩, ?_, ?_, by decide +kernel, by decide +kernel⟩ ?_ ?_
    · intro k vs h
      simp only [List.mem_cons, List.not_mem_nil, or_false, Prod.mk.injEq] at h
      obtain ⟨rfl, _⟩ := h; decide +kernel
    · intro k vs h
      simp only [List.mem_cons, List.not_mem_nil, or_false, Prod.mk.injEq] at h
      obtain ⟨rfl, _⟩ := h
      exact ⟨by decide +kernel, by decide +kernel, by decide +kernel, by decide +kernel⟩
    · intro k vs h
      simp only [List.mem_cons, List.not_mem_nil, or_false, Prod.mk.injEq] at h
      obtain ⟨_, rfl⟩ := h
      simp [OneKind, PyStr.isText]
    · intro k vs h
      simp only [List.mem_cons, List.not_mem_nil, or_false, Prod.mk.injEq] at h
      obtain ⟨rfl, _⟩ := h; decide +kernel
    · exact ⟨.text "cn".toList, _, _, _, ⟨_, List.mem_cons_self, rfl⟩, List.mem_cons_self, rfl⟩
  · exact .delete _ ⟨by decide +kernel, by decide +kernel⟩

end Verif.C32
