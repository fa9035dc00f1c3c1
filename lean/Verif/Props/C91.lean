import Verif.Model.LdifPatch
import Verif.Props.C27
import Verif.Props.C32
import Verif.Props.C84
/-
C91  The difference of two trees, written as LDIF, read again and applied.
-/
namespace Verif.C91
open Verif.Tree Verif.Dn Verif.Spec Verif.LdifPatch
open Verif.Server (Env ascii)
open Verif.C27 (Uniform Known Equal)
open Verif.Spec.Modify (Vocabulary allOctets)
open Verif.Ldif (Under)

variable {env : Env} {o : Orders} {R : Rdn → Prop} {K : PyStr → Prop} {ha hb : Heap}

/-! What is written. -/

/-- An operation as the reader gives it. -/
def toRecord : TreeOp → Ldif.Record
  | .modify dn ms => .modify dn ms
  | .add e => .add e
  | .delete dn => .delete dn

theorem toOp_toRecord (op : TreeOp) : toOp (toRecord op) = some op := by cases op <;> rfl

theorem opText_eq (op : TreeOp) : opText env op = C32.text env (toRecord op) := by cases op <;> rfl

theorem opTexts_eq (ops : List TreeOp) : opTexts env ops = C32.texts env (ops.map toRecord) := by
  induction ops with
  | nil => rfl
  | cons op ops ih => rw [opTexts, List.map_cons, C32.texts, opText_eq, ih]

/-- A tree whose names can be written: DNs that parse back, and attribute names fit for LDIF. -/
structure Clean (h : Heap) : Prop where
  dns : ∀ j n, Below h 0 j → h[j]? = some n → PrintableDn n.entry.dn
  names : ∀ j n, Below h 0 j → h[j]? = some n → ∀ p ∈ n.entry.attrs, LdifName p.1.toBytes ∧ 13 ∉ p.1.toBytes

theorem modsFor_made {a b : Entry} (pa : ∀ p ∈ a.attrs, p.2.Nodup) (pb : ∀ p ∈ b.attrs, p.2.Nodup) {k : PyStr} {m : Mod}
    (hm : m ∈ Delta.modsFor a b k) : m.values.Nodup ∧ (∃ p ∈ a.attrs ++ b.attrs, p.1 = m.key) ∧
      ∀ v ∈ m.values, ∃ p ∈ a.attrs ++ b.attrs, v ∈ p.2 := by
  unfold Delta.modsFor at hm
  split at hm
  · rename_i t h1 h2
    cases List.mem_singleton.mp hm
    have := Delta.stored_mem h2
    exact ⟨pb _ this, ⟨_, List.mem_append_right _ this, rfl⟩, fun v hv => ⟨_, List.mem_append_right _ this, hv⟩⟩
  · rename_i s h1 h2
    cases List.mem_singleton.mp hm
    have := Delta.stored_mem h1
    exact ⟨pa _ this, ⟨_, List.mem_append_left _ this, rfl⟩, fun v hv => ⟨_, List.mem_append_left _ this, hv⟩⟩
  · rename_i s t h1 h2
    have m1 := Delta.stored_mem h1
    have m2 := Delta.stored_mem h2
    have key : ∀ {x y : List PyStr}, x.Nodup → (Delta.sortBytes (AttributeSet.minus x y)).Nodup := fun hx =>
      (Delta.sortBytes_perm _).nodup_iff.mpr (hx.filter _)
    rcases List.mem_append.mp hm with hm | hm
    · split at hm
      · cases hm
      · cases List.mem_singleton.mp hm
        refine ⟨key (pb _ m2), ⟨_, List.mem_append_right _ m2, rfl⟩, fun v hv => ⟨_, List.mem_append_right _ m2, ?_⟩⟩
        exact (Delta.mem_minus.mp ((Delta.sortBytes_perm _).mem_iff.mp hv)).1
    · split at hm
      · cases hm
      · cases List.mem_singleton.mp hm
        refine ⟨key (pa _ m1), ⟨_, List.mem_append_left _ m1, rfl⟩, fun v hv => ⟨_, List.mem_append_left _ m1, ?_⟩⟩
        exact (Delta.mem_minus.mp ((Delta.sortBytes_perm _).mem_iff.mp hv)).1
  · cases hm

theorem diff_made {U : Unicode} (hU : Sane U) {a b : Entry} (h : C20.Comparable a b) (pb : ∀ p ∈ b.attrs, p.2.Nodup) {ms : List Mod}
    (hd : Delta.diff U a b = .ok (some ms)) : ∀ m ∈ ms, m.values.Nodup ∧ (∃ p ∈ a.attrs ++ b.attrs, p.1 = m.key) ∧
      ∀ v ∈ m.values, ∃ p ∈ a.attrs ++ b.attrs, v ∈ p.2 := by
  have hdn : Dn.eq U a.dn b.dn = true := by
    simp only [Delta.diff] at hd
    split at hd
    · cases hd
    · rename_i hx; simpa using hx
  obtain ⟨same, _, hd'⟩ := C20.diff_eq hU h hdn
  rw [hd] at hd'
  cases same with
  | true => simp at hd'
  | false =>
    simp only [Bool.false_eq_true, if_false, Except.ok.injEq, Option.some.injEq] at hd'
    intro m hm
    rw [hd'] at hm
    obtain ⟨k, _, hm⟩ := List.mem_flatMap.mp hm
    exact modsFor_made h.values_a pb hm

theorem bytes_of {v : PyStr} (h : v.isText = false) : v = .bytes v.toBytes := by
  cases v with
  | text s => cases h
  | bytes b => rfl

/-- Modifications of octets are read as they were, up to the order of values. -/
theorem same_reordered {ms ms' : List Mod} (hl : ms'.length = ms.length) (hs : ∀ x ∈ ms.zip ms', SameMod x.1 x.2)
    (hm : ∀ m ∈ ms, m.values.Nodup ∧ m.key.isText = false ∧ ∀ v ∈ m.values, v.isText = false) : Delta.Reordered ms ms' := by
  induction ms generalizing ms' with
  | nil =>
    cases ms' with
    | nil => trivial
    | cons => cases hl
  | cons m ms ih =>
    cases ms' with
    | nil => cases hl
    | cons m' ms' =>
      obtain ⟨h1, h2, h3⟩ := hm m List.mem_cons_self
      have s := hs (m, m') List.mem_cons_self
      refine ⟨s.kind.symm, by rw [s.key, ← bytes_of h2], ?_, ih (by simpa using hl)
        (fun x hx => hs x (List.mem_cons_of_mem _ hx)) fun x hx => hm x (List.mem_cons_of_mem _ hx)⟩
      rw [List.perm_ext_iff_of_nodup h1 s.once]
      intro v
      rw [s.values]
      constructor
      · intro hv; exact ⟨v, hv, bytes_of (h3 v hv)⟩
      · rintro ⟨w, hw, e⟩
        rw [e, ← bytes_of (h3 w hw)]; exact hw

theorem under_of {d : Verif.Attrs} (h : ∀ p ∈ d, ∀ v ∈ p.2, v.isText = false) {dn : Dn} {k v : PyStr} :
    C20.HasValue ⟨dn, d⟩ k v ↔ v.isText = false ∧ HasValue ⟨dn, d⟩ k v.toBytes := by
  constructor
  · rintro ⟨vs, ⟨k', hm, hn⟩, hv⟩
    exact ⟨h _ hm v hv, vs, v, ⟨k', hm, hn⟩, hv, rfl⟩
  · rintro ⟨ht, vs, w, ⟨k', hm, hn⟩, hw, e⟩
    refine ⟨vs, ⟨k', hm, hn⟩, ?_⟩
    rw [bytes_of ht, ← e, ← bytes_of (h _ hm w hw)]
    exact hw

theorem hasValue_of {e e' : Entry} {k : PyStr} {b : Bytes} (h : ∀ a v, Under e.attrs a v ↔ Under e'.attrs a v) :
    HasValue e k b ↔ HasValue e' k b := by
  rw [show e = ⟨e.dn, e.attrs⟩ from rfl, show e' = ⟨e'.dn, e'.attrs⟩ from rfl, Ldif.hasValue_iff, Ldif.hasValue_iff]
  simp only [h]

/-- An entry read back does the same when it is added. -/
theorem reads_like {e e' : Entry} (h : Reads e e') (hv : ∀ p ∈ e.attrs, ∀ v ∈ p.2, v.isText = false) :
    Like env (.add e) (.add e') := by
  have ho : LoadLdif.Octets e'.attrs := by
    refine ⟨fun p hp => ?_, List.pairwise_map.mpr h.attributes, fun p hp => (h.once p hp).2.1, fun p hp => (h.once p hp).2.2⟩
    exact ⟨_, bytes_of (h.octets p hp)⟩
  obtain ⟨l, h1, h2, h3, h4⟩ := LoadLdif.items_octets env ho
  obtain ⟨b1, b2⟩ := LoadLdif.built_octets (U := env.U) h2 h3
  refine .add e e' l h.dn h1 fun dn k v => ?_
  rw [under_of b1.values, show e = ⟨e.dn, e.attrs⟩ from rfl, under_of hv]
  refine and_congr_right fun _ => ?_
  have := h.values k v.toBytes
  rw [show (⟨e.dn, e.attrs⟩ : Entry) = e from rfl, this]
  exact hasValue_of (e := ⟨dn, buildAttrs env.U l⟩) fun a v => (b2 a v).trans (h4 a v)

/-- The operations of the difference can be written, if added entries have values. -/
theorem known_fine (hU : Sane env.U) (hK : ∀ k k', K k → K k' → SameName k k' → k = k')
    (hua : Uniform R K allOctets ha) (hub : Uniform R K allOctets hb) (hca : Clean ha) (hcb : Clean hb)
    (hne : ∀ j n, Below hb 0 j → j ≠ 0 → hb[j]? = some n → ∃ a b, HasValue n.entry a b) {op : TreeOp} (hop : Known env.U ha hb op) :
    C32.Fine (toRecord op) ∧ ∀ r, C32.Same (toRecord op) r → ∃ op', r = toRecord op' ∧ Like env op op' := by
  cases hop with
  | modify i j n m ms hi hn hj hm hd =>
    have ta := hua.tidy i n hi hn
    have tb := hub.tidy j m hj hm
    have made := diff_made hU (C27.comparable (V := allOctets) (fun _ _ h => h.2) hK ta tb (hua.names i n hi hn) (hub.names j m hj hm))
      tb.nodup hd
    have hval : ∀ x ∈ ms, ∀ v ∈ x.values, v.isText = false := by
      intro x hx v hv
      obtain ⟨p, hp, hv⟩ := (made x hx).2.2 v hv
      rcases List.mem_append.mp hp with hp | hp
      · exact (ta.values p hp v hv).1
      · exact (tb.values p hp v hv).1
    refine ⟨.modify _ _ (hca.dns i n hi hn) fun x hx => ⟨.inr (hval x hx), fun _ => ?_⟩, fun r hr => ?_⟩
    · obtain ⟨p, hp, e⟩ := (made x hx).2.1
      rw [← e]
      rcases List.mem_append.mp hp with hp | hp
      · exact (hca.names i n hi hn p hp).1
      · exact (hcb.names j m hj hm p hp).1
    · cases hr with
      | modify _ _ ms' hl hs =>
        refine ⟨.modify _ ms', rfl, .modify _ _ _ (same_reordered hl hs fun x hx => ⟨(made x hx).1, ?_, hval x hx⟩)⟩
        obtain ⟨p, hp, e⟩ := (made x hx).2.1
        rw [← e]
        rcases List.mem_append.mp hp with hp | hp
        · exact (ta.names p hp).kind
        · exact (tb.names p hp).kind
  | add j m hj h0 hm =>
    have tb := hub.tidy j m hj hm
    refine ⟨.add _ ⟨⟨fun k vs hp => (tb.names _ hp).ascii, tb.apart⟩, fun k vs hp => (hcb.names j m hj hm _ hp).1,
      fun k vs hp => .inr fun v hv => (tb.values _ hp v hv).1, (hcb.dns j m hj hm).types, (hcb.dns j m hj hm).rdns⟩
      (fun k vs hp => (hcb.names j m hj hm _ hp).2) (hne j m hj h0 hm), fun r hr => ?_⟩
    cases hr with
    | add _ e' hr => exact ⟨.add e', rfl, reads_like hr fun p hp v hv => (tb.values p hp v hv).1⟩
  | delete i n hi hn =>
    refine ⟨.delete _ (hca.dns i n hi hn), fun r hr => ?_⟩
    cases hr
    exact ⟨.delete _, rfl, .delete _⟩

/-! Reading with or without the header. -/

theorem receive_header (U : Unicode) : Ldif.receive U (Ldif.start true) [ascii "version: 1", []] =
    .ok { Ldif.start true with mode := .waitForDn, version := some 1 } := by
  have h1 : Ldif.parseLine (ascii "version: 1") = .ok (ascii "version", [49]) := by decide +kernel
  have h2 : Ldif.readInt [49] = some 1 := by decide +kernel
  have h3 : [35].isPrefixOf (ascii "version: 1") = false := by decide +kernel
  have hf : Ldif.Fresh (ascii "version: 1") := ⟨by decide +kernel, by decide +kernel⟩
  generalize ascii "version: 1" = l at *
  have e1 : Ldif.lineReceived U (Ldif.start true) l = .ok { Ldif.start true with lastLine := some l } := by
    rw [Ldif.lineReceived_fresh hf]; rfl
  have e2 : Ldif.logicalLine U { Ldif.start true with lastLine := some l } l =
      .ok { Ldif.start true with lastLine := some l, mode := .waitForDn, version := some 1 } := by
    simp only [Ldif.logicalLine, h3, Ldif.start, Bool.false_eq_true, if_false, if_true, Ldif.stateHeader, h1, ne_eq, not_true_eq_false, h2]
    rfl
  simp only [Ldif.receive, e1, bind, Except.bind]
  simp only [Ldif.lineReceived, e2, bind, Except.bind]
  rfl

theorem header_lines : Ldif.header = Ldif.unlines [ascii "version: 1", []] := by decide +kernel

theorem each_zip {α β : Type} {P : α → β → Prop} {l : List α} {l' : List β} (h : l'.length = l.length) (hz : ∀ x ∈ l.zip l', P x.1 x.2) :
    Each P l l' := by
  induction l generalizing l' with
  | nil => cases l' with | nil => exact .nil | cons => cases h
  | cons a l ih =>
    cases l' with
    | nil => cases h
    | cons b l' => exact .cons (hz (a, b) List.mem_cons_self) (ih (by simpa using h) fun x hx => hz x (List.mem_cons_of_mem _ hx))

theorem each_ops {ops : List TreeOp} {rs : List Ldif.Record} (h : Each C32.Same (ops.map toRecord) rs)
    (hf : ∀ op ∈ ops, ∀ r, C32.Same (toRecord op) r → ∃ op', r = toRecord op' ∧ Like env op op') :
    Each (Like env) ops (rs.filterMap toOp) := by
  induction ops generalizing rs with
  | nil => cases each_nil h; exact .nil
  | cons op ops ih =>
    rw [List.map_cons] at h
    cases h with
    | cons h1 h2 =>
      obtain ⟨op', rfl, h3⟩ := hf op List.mem_cons_self _ h1
      rw [List.filterMap_cons, toOp_toRecord]
      exact .cons h3 (ih h2 fun x hx => hf x (List.mem_cons_of_mem _ hx))

/-- The text of operations is read back, with the header before it, and without if there are operations. -/
theorem read_back (hU : Sane env.U) {ops : List TreeOp} (hf : ∀ op ∈ ops, C32.Fine (toRecord op) ∧
      ∀ r, C32.Same (toRecord op) r → ∃ op', r = toRecord op' ∧ Like env op op') :
    ∃ t, opTexts env ops = .ok t ∧ ∀ pre, (pre = Ldif.header ∨ pre = [] ∧ ops ≠ []) → ShortLines (pre ++ t) →
      ∀ chunks : List Bytes, chunks.flatten = pre ++ t → ∃ ops', fromLDIFFile env.U chunks = .ok ops' ∧ Each (Like env) ops ops' := by
  obtain ⟨ls, rs', h1, h2, h3, h4, h5⟩ := C32.records_step hU (ops.map toRecord) (by
    intro r hr
    obtain ⟨op, hop, rfl⟩ := List.mem_map.mp hr
    exact (hf op hop).1)
  refine ⟨_, by rw [opTexts_eq]; exact h1, fun pre hpre hs chunks hc => ⟨rs'.filterMap toOp, ?_, each_ops (each_zip h3 h4) fun op hop => (hf op hop).2⟩⟩
  have hpar : Ldif.parse env.U true chunks = (rs', none) := by
    unfold Ldif.parse
    rcases hpre with rfl | ⟨rfl, hne⟩
    · obtain ⟨q, k1, k2, k3⟩ := h5 { Ldif.start true with mode := .waitForDn, version := some 1 } ⟨.inr rfl, rfl, rfl, rfl⟩ rfl rfl
      have hh := receive_header env.U
      have hn : ∀ l ∈ [ascii "version: 1", []], 10 ∉ l := by decide +kernel
      rw [header_lines] at hs hc
      generalize ascii "version: 1" = v at *
      have hr : Ldif.receive env.U (Ldif.start true) ([v, []] ++ ls) = .ok q := by
        rw [Ldif.receive_append, hh]; exact k1
      rw [← Ldif.unlines_append] at hs hc
      rw [Ldif.feed_lines hr (by
        intro l hl
        rcases List.mem_append.mp hl with hl | hl
        · exact hn l hl
        · exact h2 l hl) hs hc]
      have hmode : q.mode = .waitForDn := by
        by_cases he : ops.map toRecord = []
        · rw [he] at h1
          have hls : ls = [] := by
            have := Except.ok.inj h1
            cases ls with
            | nil => rfl
            | cons m ms => simp [Ldif.unlines] at this
          subst hls
          cases k1
          rfl
        · exact k2 he
      simp only [Ldif.connectionLost, hmode, if_true, k3]
      rfl
    · rw [List.nil_append] at hs hc
      obtain ⟨q, k1, k2, k3⟩ := h5 (Ldif.start true) ⟨.inl rfl, rfl, rfl, rfl⟩ rfl rfl
      rw [Ldif.feed_lines k1 h2 hs hc]
      simp only [Ldif.connectionLost, k2 (by simpa using hne), if_true, k3]
      rfl
  simp only [fromLDIFFile, hpar]

/-- Operations that all succeed leave the tree that applying them without looking leaves. -/
theorem applyAll_replay {h h' : Heap} {ops : List TreeOp} (hr : replay env o h ops = (h', none)) : applyAll env o h ops = h' := by
  induction ops generalizing h with
  | nil => cases hr; rfl
  | cons op ops ih =>
    unfold applyAll
    rw [List.foldl_cons]
    simp only [replay] at hr
    split at hr
    · rename_i h1 e
      rw [e]
      exact ih hr
    · cases hr

/-- The difference of two trees is written, read back however the text arrives, and applied; every operation succeeds, and then
the one tree has the names and values of the other. -/
theorem written_partial {o' : Orders} (hU : Sane env.U) (hor : ∀ l, (o.rdns l).Perm l) (hov : ∀ l, (o'.values l).Perm l)
    (hR : Spelled env.U R) (hK : ∀ k k', K k → K k' → SameName k k' → k = k')
    (hua : Uniform R K allOctets ha) (hub : Uniform R K allOctets hb) (hca : Clean ha) (hcb : Clean hb)
    (hroot : foldDn env.U (dnOf ha 0) = foldDn env.U (dnOf hb 0))
    (hne : ∀ j n, Below hb 0 j → j ≠ 0 → hb[j]? = some n → ∃ a b, HasValue n.entry a b) :
    ∃ ops t, diffTree env.U o ha hb = .ok ops ∧ opTexts env ops = .ok t ∧
      ∀ pre, (pre = Ldif.header ∨ pre = [] ∧ ops ≠ []) → ShortLines (pre ++ t) → ∀ chunks : List Bytes, chunks.flatten = pre ++ t →
        ∃ ops' h', fromLDIFFile env.U chunks = .ok ops' ∧ replay env o' ha ops' = (h', none) ∧ applyAll env o' ha ops' = h' ∧
          Inv h' ∧ Rooted h' 0 ∧ Equal env.U h' hb := by
  obtain ⟨ops, h1, hk, h2⟩ := C27.replays_like (o := o) (o' := o') (V := allOctets) hU hor hov hR hK (fun _ _ h => h.2) hua hub hroot
  obtain ⟨t, h3, h4⟩ := read_back hU fun op hop => known_fine hU hK hua hub hca hcb hne (hk op hop)
  refine ⟨ops, t, h1, h3, fun pre hpre hs chunks hc => ?_⟩
  obtain ⟨ops', h5, h6⟩ := h4 pre hpre hs chunks hc
  obtain ⟨h', h7, h8, h9, h10⟩ := h2 ops' h6
  exact ⟨ops', h', h5, h7, applyAll_replay h7, h8, h9, h10⟩

/-! From files. -/

theorem collect_names {U : Unicode} {N : PyStr → Prop} {d : Verif.Attrs} {p : PyStr × List PyStr} (hd : ∀ q ∈ d, N q.1) (hp : N p.1) :
    ∀ q ∈ collect U d p, N q.1 := by
  intro q hq
  unfold collect at hq
  split at hq
  · have hk : ∀ (d : Verif.Attrs) (f : List PyStr → List PyStr), (d.update U p.1 f).map (·.1) = d.map (·.1) := by
      intro d f
      induction d with
      | nil => rfl
      | cons q d ih =>
        unfold Attrs.update
        split <;> simp [ih]
    have : q.1 ∈ d.map (·.1) := by rw [← hk d]; exact List.mem_map.mpr ⟨q, hq, rfl⟩
    obtain ⟨q', h1, h2⟩ := List.mem_map.mp this
    rw [← h2]; exact hd q' h1
  · rcases List.mem_append.mp hq with hq | hq
    · exact hd q hq
    · rw [List.mem_singleton.mp hq]; exact hp

theorem buildAttrs_names {U : Unicode} {N : PyStr → Prop} {l : Verif.Attrs} (hl : ∀ p ∈ l, N p.1) : ∀ q ∈ buildAttrs U l, N q.1 := by
  have key : ∀ (l d : Verif.Attrs), (∀ q ∈ d, N q.1) → (∀ p ∈ l, N p.1) → ∀ q ∈ l.foldl (collect U) d, N q.1 := by
    intro l
    induction l with
    | nil => intro d hd _; exact hd
    | cons p l ih =>
      intro d hd hl
      exact ih _ (collect_names hd (hl p List.mem_cons_self)) fun q hq => hl q (List.mem_cons_of_mem _ hq)
  intro q hq
  obtain ⟨q', h1, rfl⟩ := List.mem_map.mp hq
  exact key l [] (fun q hq => by cases hq) hl q' h1

/-- `objectClass`, as it is spelled when an entry is copied. -/
def classes : PyStr := .bytes (ascii "objectClass")

theorem items_names {e : Entry} (h : LoadLdif.Octets e.attrs) {l : Verif.Attrs} (hl : Server.items env e = .ok l) :
    ∀ p ∈ l, p.1 = classes ∨ ∃ vs, (p.1, vs) ∈ e.attrs := by
  have hB := C70.items_octets (fun p hp => by obtain ⟨b, hb⟩ := h.names p hp; rw [hb]; rfl) hl
  have hperm := Server.sortItems_perm e.attrs
  have hr := Server.otherItems_eq (U := env.U) (Server.sortItems e.attrs)
    (fun k vs hm _ => .inr (h.values _ (hperm.mem_iff.mp hm)))
  simp only [Server.items, hr, bind, Except.bind, pure, Except.pure, Except.ok.injEq] at hl
  intro p hp
  obtain ⟨b, hb⟩ := hB p hp
  rw [← hl] at hp
  rcases List.mem_append.mp hp with hc | hc
  · obtain ⟨k, hk, hf⟩ := List.mem_filterMap.mp hc
    split at hf
    · cases hf
      left
      unfold Server.classKeys at hk
      simp only at hb
      subst hb
      split at hk <;> simpa [classes] using hk
    · cases hf
  · obtain ⟨q, hq, rfl⟩ := List.mem_map.mp hc
    exact .inr ⟨q.2, hperm.mem_iff.mp (List.mem_filter.mp hq).1⟩

/-- The RDNs that occur in the tree are those of the entries. -/
theorem addEntry_dns {hooks : LoadLdif.Hooks} {Q : Rdn → Prop} {h : Heap} {e : Entry} (hh : ∀ n ∈ h, ∀ r ∈ n.entry.dn, Q r)
    (he : ∀ r ∈ e.dn, Q r) : ∀ n ∈ (LoadLdif.addEntry env hooks h e).1, ∀ r ∈ n.entry.dn, Q r := by
  have hadd : ∀ {p rdn as r}, rdn ∈ e.dn → addChild env.U h p rdn as = .ok r → ∀ n ∈ r.1, ∀ r ∈ n.entry.dn, Q r := by
    intro p rdn as r hr ha n hn
    unfold addChild at ha
    split at ha
    · cases ha
    · rename_i m hm
      split at ha
      · cases ha
      · cases ha
        have hmh := List.mem_of_getElem? hm
        rcases List.mem_append.mp hn with hn | hn
        · rcases List.mem_or_eq_of_mem_set hn with hn | rfl
          · exact hh n hn
          · exact hh m hmh
        · rw [List.mem_singleton.mp hn]
          intro r hr'
          rcases List.mem_cons.mp hr' with rfl | hr'
          · exact he _ hr
          · exact hh m hmh r hr'
  have hto : ∀ p, ∀ n ∈ (LoadLdif.addTo env h p e).1, ∀ r ∈ n.entry.dn, Q r := by
    intro p
    unfold LoadLdif.addTo
    split
    · exact hh
    · rename_i rdn up hd
      split
      · exact hh
      · split
        · exact hh
        · split
          · exact hh
          · rename_i r hr
            exact hadd (by rw [hd]; exact List.mem_cons_self) hr
  have hrec : ∀ x : Heap × Option PyErr, (LoadLdif.recover hooks e x).1 = x.1 := by
    rintro ⟨h, _ | x⟩ <;> rfl
  unfold LoadLdif.addEntry
  split
  · rw [hrec]; exact hto _
  · split
    · exact hh
    · rw [hrec]; exact hh

theorem gotAll_dns {hooks : LoadLdif.Hooks} {Q : Rdn → Prop} (es : List Entry) (he : ∀ e ∈ es, ∀ r ∈ e.dn, Q r) :
    ∀ (s : LoadLdif.State) (h : Heap) (x : Option PyErr), (∀ h x, s = some (h, x) → ∀ n ∈ h, ∀ r ∈ n.entry.dn, Q r) →
      LoadLdif.gotAll env hooks s (es.map .entry) = .ok (some (h, x)) → ∀ n ∈ h, ∀ r ∈ n.entry.dn, Q r := by
  induction es with
  | nil => intro s h x hs hg; cases hg; exact hs _ _ rfl
  | cons e es ih =>
    intro s h x hs hg
    simp only [List.map_cons, LoadLdif.gotAll, bind, Except.bind] at hg
    split at hg
    · cases hg
    · rename_i s' hs'
      refine ih (fun e' he' => he e' (List.mem_cons_of_mem _ he')) s' h x ?_ hg
      have hhead := he e List.mem_cons_self
      unfold LoadLdif.gotEntry at hs'
      split at hs'
      · simp only [bind, Except.bind] at hs'
        split at hs'
        · cases hs'
        · cases hs'
          intro h x hx
          cases hx
          intro n hn
          rw [List.mem_singleton.mp hn]
          exact hhead
      · cases hs'
        exact hs
      · cases hs'
        rename_i h0
        intro h x hx
        have := addEntry_dns (env := env) (hooks := hooks) (e := e) (hs _ _ rfl) hhead
        rw [Option.some.inj hx] at this
        exact this

/-- The attribute names of entries. -/
def Names (es : List Entry) (k : PyStr) : Prop := k = classes ∨ ∃ e ∈ es, ∃ vs, (k, vs) ∈ e.attrs

/-- Entries of files that the difference can deal with: no RDN is empty, attribute names are in ASCII and fit for LDIF, equal
ones are spelled alike, and values are UTF-8. -/
structure Regular (es : List Entry) : Prop where
  rdns : ∀ e ∈ es, ∀ r ∈ e.dn, r ≠ []
  names : ∀ e ∈ es, ∀ p ∈ e.attrs, p.1.Ascii ∧ LdifName p.1.toBytes ∧ 13 ∉ p.1.toBytes
  spelling : ∀ k k', Names es k → Names es k' → SameName k k' → k = k'
  values : ∀ e ∈ es, ∀ p ∈ e.attrs, ∀ v ∈ p.2, v.Decodable

/-- The tree has just these entries, with their values. -/
def Has (U : Unicode) (h : Heap) (es : List Entry) : Prop :=
  (∀ e ∈ es, ∃ i n, lookup U h 0 e.dn = .ok i ∧ h[i]? = some n ∧ ∀ k v, C20.HasValue n.entry k v ↔ C20.HasValue e k v) ∧
    ∀ d, (∀ e ∈ es, Dn.eq U e.dn d = false) → lookup U h 0 d = .error .noSuchObject

theorem under_has {e : Entry} {k v : PyStr} : C20.HasValue e k v ↔ Under e.attrs k v := by
  constructor
  · rintro ⟨vs, ⟨k', hm, hn⟩, hv⟩; exact ⟨(k', vs), hm, hn, hv⟩
  · rintro ⟨⟨k', vs⟩, hm, hn, hv⟩; exact ⟨vs, ⟨k', hm, hn⟩, hv⟩

theorem classes_fit : classes.Ascii ∧ LdifName classes.toBytes ∧ 13 ∉ classes.toBytes := by
  refine ⟨?_, ⟨?_, ?_, ?_, ?_⟩, ?_⟩
  · unfold PyStr.Ascii; decide +kernel
  all_goals decide +kernel

/-- A file that is loaded: the tree is as the difference needs it. -/
theorem loaded (chunks : List Bytes) (first : Entry) (es all : List Entry) (hsub : ∀ e ∈ first :: es, e ∈ all)
    (hp : Ldif.parse env.U false chunks = ((first :: es).map .entry, none)) (ha : C84.Alike env.U es)
    (ho : C84.Ordered env.U first es) (hreg : Regular all) {R : Rdn → Prop} (hR : ∀ r, C84.Under1 es r → R r) :
    ∃ h, LoadLdif.fromLDIFFile env chunks = .ok (.fired h) ∧ C84.Contains env.U h (first :: es) ∧
      Uniform R (Names all) allOctets h ∧ Clean h ∧ foldDn env.U (dnOf h 0) = foldDn env.U first.dn := by
  obtain ⟨h, h1, h2⟩ := C84.loaded_partial env chunks first es hp ha ho
  have hm := C84.made_of_parse hp
  obtain ⟨h', l, D', g1, hl, g2, g3, g4⟩ := C84.loads_sim env LoadLdif.aborting first es hm ha
  have hh : h' = h := by
    simp only [LoadLdif.fromLDIFFile, LoadLdif.receive, hp, g1] at h1
    rw [C84.ordered_taken ho] at h1
    simpa [LoadLdif.connectionLost] using h1
  subst hh
  rw [C84.ordered_taken ho] at g1 g4
  have hdns := gotAll_dns (env := env) (hooks := LoadLdif.aborting) (Q := fun r => r ≠ [] ∧ ∀ a ∈ r, Ava.Plain a) (first :: es)
    (fun e he r hr => ⟨hreg.rdns e (hsub e he) r hr, C84.made_plain (hm e he) r hr⟩) none h' none (by intro h x hx; cases hx) g1
  have hnode : ∀ j n, Below h' 0 j → h'[j]? = some n → ∃ e ∈ first :: es, LoadLdif.Octets n.entry.attrs ∧
      (∀ a v, Under n.entry.attrs a v ↔ Under e.attrs a v) ∧ ∀ p ∈ n.entry.attrs, Names [e] p.1 := by
    intro j n hb hn
    obtain ⟨as, hmem, hat⟩ := g2.sound j n hb hn
    have : ∃ e ∈ first :: es, Server.items env e = .ok as := by
      rcases List.mem_cons.mp hmem with e | hmem
      · rw [(Prod.mk.inj e).2]; exact ⟨first, List.mem_cons_self, hl⟩
      · obtain ⟨e, he, _, hi⟩ := g4 _ hmem
        exact ⟨e, List.mem_cons_of_mem _ he, hi⟩
    obtain ⟨e, he, hi⟩ := this
    have ho := LoadLdif.made_octets (hm e he)
    obtain ⟨l', i1, i2, i3, i4⟩ := LoadLdif.items_octets env ho
    rw [hi] at i1
    cases i1
    obtain ⟨b1, b2⟩ := LoadLdif.built_octets (U := env.U) i2 i3
    rw [hat]
    refine ⟨e, he, b1, fun a v => (b2 a v).trans (i4 a v), buildAttrs_names fun p hp => ?_⟩
    exact (items_names ho hi p hp).imp id fun h => ⟨e, List.mem_singleton.mpr rfl, h⟩
  have hfit : ∀ j n, Below h' 0 j → h'[j]? = some n → ∀ p ∈ n.entry.attrs, p.1.Ascii ∧ LdifName p.1.toBytes ∧ 13 ∉ p.1.toBytes := by
    intro j n hb hn p hp
    obtain ⟨e, he, _, _, hk⟩ := hnode j n hb hn
    rcases hk p hp with e' | ⟨e', he', vs, hm'⟩
    · rw [e']; exact classes_fit
    · rw [List.mem_singleton.mp he'] at hm'
      exact hreg.names e (hsub e he) (p.1, vs) hm'
  refine ⟨h', h1, h2, ⟨g2.inv, g2.rooted, fun i k c r d hc hd => hR r (g2.named i k c r d hc hd), fun j n hb hn => ?_, fun j n hb hn p hp => ?_⟩,
    ⟨fun j n hb hn => ?_, fun j n hb hn p hp => (hfit j n hb hn p hp).2⟩, g2.rootName⟩
  · obtain ⟨e, he, ho, hu, hk⟩ := hnode j n hb hn
    have hap := List.pairwise_map.mp ho.apart
    refine ⟨⟨fun p hp => ⟨(hfit j n hb hn p hp).1, ?_⟩, hap⟩, fun p hp v hv => ⟨ho.values p hp v hv, ?_⟩, ho.once⟩
    · obtain ⟨b, hb⟩ := ho.names p hp
      rw [hb]; rfl
    · obtain ⟨q, hq, _, hv'⟩ := (hu p.1 v).mp ⟨p, hp, rfl, hv⟩
      exact hreg.values e (hsub e he) q hq v hv'
  · obtain ⟨e, he, _, _, hk⟩ := hnode j n hb hn
    rcases hk p hp with e' | ⟨e', he', vs, hm'⟩
    · exact .inl e'
    · rw [List.mem_singleton.mp he'] at hm'
      exact .inr ⟨e, hsub e he, vs, hm'⟩
  · have := hdns n (List.mem_of_getElem? hn)
    exact ⟨fun r hr a ha => (this r hr).2 a ha, fun r hr => (this r hr).1⟩

theorem equal_has {U : Unicode} {h hb : Heap} {es : List Entry} (he : Equal U h hb) (hc : C84.Contains U hb es) : Has U h es := by
  refine ⟨fun e hm => ?_, fun d hd => he.2 d _ (hc.2.1 d hd)⟩
  obtain ⟨j, n, hl, hn, hs⟩ := hc.1 e hm
  obtain ⟨i, n', m, h1, h2, h3, h4⟩ := he.1 _ j hl
  rw [hn] at h3
  cases h3
  refine ⟨i, n', h1, h2, fun k v => ?_⟩
  rw [h4, under_has, under_has, hs.values]

/-- Two files, loaded; the difference of the trees, written, read back and applied to the first: the tree then has just the
entries of the second file. -/
theorem files_partial {o' : Orders} (hU : Sane env.U) (hor : ∀ l, (o.rdns l).Perm l) (hov : ∀ l, (o'.values l).Perm l)
    (ca cb : List Bytes) (fa fb : Entry) (ea eb : List Entry)
    (pa : Ldif.parse env.U false ca = ((fa :: ea).map .entry, none)) (pb : Ldif.parse env.U false cb = ((fb :: eb).map .entry, none))
    (oa : C84.Ordered env.U fa ea) (ob : C84.Ordered env.U fb eb) (hal : C84.Alike env.U (ea ++ eb))
    (hreg : Regular ((fa :: ea) ++ (fb :: eb))) (hroot : Dn.eq env.U fa.dn fb.dn = true)
    (hne : ∀ e ∈ fb :: eb, ∃ a v, C20.HasValue e a v) :
    ∃ ha hb ops t, LoadLdif.fromLDIFFile env ca = .ok (.fired ha) ∧ LoadLdif.fromLDIFFile env cb = .ok (.fired hb) ∧
      diffTree env.U o ha hb = .ok ops ∧ opTexts env ops = .ok t ∧
      ∀ pre, (pre = Ldif.header ∨ pre = [] ∧ ops ≠ []) → ShortLines (pre ++ t) → ∀ chunks : List Bytes, chunks.flatten = pre ++ t →
        ∃ ops' h', fromLDIFFile env.U chunks = .ok ops' ∧ replay env o' ha ops' = (h', none) ∧ applyAll env o' ha ops' = h' ∧
          Has env.U h' (fb :: eb) := by
  have hR := C84.alike_spelled (es := ea ++ eb) (fun e he => by
    rcases List.mem_append.mp he with he | he
    · exact C84.made_of_parse pa e (List.mem_cons_of_mem _ he)
    · exact C84.made_of_parse pb e (List.mem_cons_of_mem _ he)) hal
  have hla : C84.Alike env.U ea := fun e he e' he' => hal e (List.mem_append_left _ he) e' (List.mem_append_left _ he')
  have hlb : C84.Alike env.U eb := fun e he e' he' => hal e (List.mem_append_right _ he) e' (List.mem_append_right _ he')
  obtain ⟨ha, a1, a2, a3, a4, a5⟩ := loaded ca fa ea _ (fun e he => List.mem_append_left _ he) pa hla oa hreg (R := C84.Under1 (ea ++ eb))
    (by rintro r ⟨e, he, h⟩; exact ⟨e, List.mem_append_left _ he, h⟩)
  obtain ⟨hb, b1, b2, b3, b4, b5⟩ := loaded cb fb eb _ (fun e he => List.mem_append_right _ he) pb hlb ob hreg (R := C84.Under1 (ea ++ eb))
    (by rintro r ⟨e, he, h⟩; exact ⟨e, List.mem_append_right _ he, h⟩)
  obtain ⟨ops, t, h1, h2, h3⟩ := written_partial (o := o) (o' := o') hU hor hov hR hreg.spelling a3 b3 a4 b4
    (by rw [a5, b5]; exact (Dn.eq_iff _ _ _).mp hroot) (by
      intro j n hj _ hn
      obtain ⟨e, he, hs⟩ := b2.2.2 j n hj hn
      obtain ⟨a, v, hv⟩ := hne e he
      rw [under_has, ← hs.values] at hv
      exact ⟨a, v.toBytes, Ldif.hasValue_iff (dn := n.entry.dn).mpr ⟨v, hv, rfl⟩⟩)
  refine ⟨ha, hb, ops, t, a1, b1, h1, h2, fun pre hpre hs chunks hc => ?_⟩
  obtain ⟨ops', h', k1, k2, k3, _, _, k4⟩ := h3 pre hpre hs chunks hc
  exact ⟨ops', h', k1, k2, k3, equal_has k4 b2⟩

/-! The scripts. -/

/-- Neither script ever writes anything, and neither reports success: when it ends in `sys.exit`, then with status 1. -/
theorem nothing_written (f1 f2 : File) (status : Nat) (w : Bytes) :
    (diffMain env o f1 f2 = .exit status w → status = 1 ∧ w = []) ∧ (patchMain env o f1 f2 = .exit status w → status = 1 ∧ w = []) := by
  constructor
  · intro h
    unfold diffMain at h
    repeat' (split at h)
    all_goals first | (cases h; exact ⟨rfl, rfl⟩) | cases h
  · intro h
    unfold patchMain at h
    repeat' (split at h)
    all_goals first | (cases h; exact ⟨rfl, rfl⟩) | cases h

/-- `ldifdiff` raises just if the first file cannot be read, waits for good just if a file that it gets to has no entries, and
ends with status 1 otherwise. -/
theorem diff_ends (f1 f2 : File) :
    (∀ x, diffMain env o f1 f2 = .raised x ↔ load env f1 = .error x) ∧
    (diffMain env o f1 f2 = .hangs ↔ load env f1 = .ok .pending ∨ ∃ h, load env f1 = .ok (.fired h) ∧ load env f2 = .ok .pending) ∧
    (diffMain env o f1 f2 = .exit 1 [] ∨ (∃ x, diffMain env o f1 f2 = .raised x) ∨ diffMain env o f1 f2 = .hangs) := by
  unfold diffMain
  cases h1 : load env f1 with
  | error x => simp
  | ok c =>
    cases c with
    | pending => simp
    | failed x => simp
    | fired ha =>
      cases h2 : load env f2 with
      | error x => simp
      | ok c =>
        cases c with
        | pending => simp
        | failed x => simp
        | fired hb =>
          cases h3 : diffTree env.U o ha hb with
          | error x => simp [h3]
          | ok ops => simp [h3, diffOutput, headerCall, finish]

/-- `ldifpatch` raises just if the data cannot be read, waits for good just if it has no entries, and ends with status 1
otherwise. -/
theorem patch_ends (f1 f2 : File) :
    (∀ x, patchMain env o f1 f2 = .raised x ↔ load env f1 = .error x) ∧
    (patchMain env o f1 f2 = .hangs ↔ load env f1 = .ok .pending) ∧
    (patchMain env o f1 f2 = .exit 1 [] ∨ (∃ x, patchMain env o f1 f2 = .raised x) ∨ patchMain env o f1 f2 = .hangs) := by
  unfold patchMain
  cases h1 : load env f1 with
  | error x => simp
  | ok c =>
    cases c with
    | pending => simp
    | failed x => simp
    | fired ha =>
      cases h2 : patches env.U f2 with
      | error x => simp
      | ok ops => simp [patchOutput, headerCall, finish]

/-- The files are opened for text: the first one that has anything in it raises, and so does an empty one. -/
theorem text_raises (s : Str) (f : File) :
    diffMain env o (.text s) f = .raised (if s = [] then .truncated else .py .typeError) ∧
      patchMain env o (.text s) f = .raised (if s = [] then .truncated else .py .typeError) := by
  cases s <;> exact ⟨rfl, rfl⟩

/-- With octets the difference is found, but not written, as there is no `ldif.header`. -/
theorem header_missing {f1 f2 : File} {ops : List TreeOp} (h1 : load env f1 = .ok (.fired ha)) (h2 : load env f2 = .ok (.fired hb))
    (hd : diffTree env.U o ha hb = .ok ops) : diffMain env o f1 f2 = .exit 1 [] := by
  unfold diffMain
  simp only [h1, h2, hd]
  rfl

/-- A file with a header only: the script waits for good. -/
theorem headerOnly_hangs (f : File) : diffMain C84.plain o (.octets (ascii "version: 1\n\n")) f = .hangs ∧
    patchMain C84.plain o (.octets (ascii "version: 1\n\n")) f = .hangs := by
  have : load C84.plain (.octets (ascii "version: 1\n\n")) = .ok .pending := C84.header_silently
  constructor
  · unfold diffMain; rw [this]
  · unfold patchMain; rw [this]

/-! An entry without values. -/

/-- An entry without values is in the difference, and what is written of it is not read: the values have to be there. -/
theorem valueless_rejected : ∃ ha hb ops t, LoadLdif.fromLDIFFile C84.plain [ascii "dn: o=x\no: x\n\n"] = .ok (.fired ha) ∧
    LoadLdif.fromLDIFFile C84.plain [ascii "dn: o=x\no: x\n\ndn: cn=a,o=x\n\n"] = .ok (.fired hb) ∧
    diffTree asciiTables C27.plainly ha hb = .ok ops ∧ opTexts C84.plain ops = .ok t ∧
    fromLDIFFile asciiTables [Ldif.header ++ t] = .error .addMissingAttributes := by
  refine ⟨[⟨⟨[[⟨['o'], ['x']⟩]], [(.bytes (ascii "o"), [.bytes (ascii "x")])]⟩, none, []⟩], [⟨⟨[[⟨['o'], ['x']⟩]], [(.bytes (ascii "o"), [.bytes (ascii "x")])]⟩, none, [("cn=a".toList, 1)]⟩,
     ⟨⟨[[⟨['c', 'n'], ['a']⟩], [⟨['o'], ['x']⟩]], []⟩, some 0, []⟩],
    [.add ⟨[[⟨['c', 'n'], ['a']⟩], [⟨['o'], ['x']⟩]], []⟩], ascii "dn: cn=a,o=x\nchangetype: add\n\n", ?_, ?_, ?_, ?_, ?_⟩ <;> decide +kernel

/-- An operation that fails does not keep the script from applying those after it. -/
theorem failures_ignored : ∃ n ops, replay C84.plain C27.plainly (single C27.root) ops = (single C27.root, some .noSuchObject) ∧
    (applyAll C84.plain C27.plainly (single C27.root) ops)[1]? = some n := by
  exact ⟨⟨⟨[[⟨['c', 'n'], ['a']⟩], [⟨['o'], ['x']⟩]], []⟩, some 0, []⟩, [.delete [[⟨['c', 'n'], ['q']⟩], [⟨['o'], ['x']⟩]], .add ⟨[[⟨['c', 'n'], ['a']⟩], [⟨['o'], ['x']⟩]], []⟩],
    by decide +kernel, by decide +kernel⟩

/-! An example. -/

theorem regular_of {es : List Entry} (h1 : ∀ e ∈ es, ∀ r ∈ e.dn, r ≠ [])
    (h2 : ∀ e ∈ es, ∀ p ∈ e.attrs, (∀ b ∈ p.1.toBytes, b.toNat < 128) ∧ 58 ∉ p.1.toBytes ∧ 10 ∉ p.1.toBytes ∧
      p.1.toBytes.head? ≠ some 32 ∧ p.1.toBytes.head? ≠ some 35 ∧ 13 ∉ p.1.toBytes ∧ p.1.isText = false ∧
      ∀ v ∈ p.2, v.isText = false ∧ ∀ b ∈ v.toBytes, b.toNat < 128)
    (h3 : ∀ k ∈ classes :: es.flatMap (fun e => e.attrs.map (·.1)), ∀ k' ∈ classes :: es.flatMap (fun e => e.attrs.map (·.1)),
      PyStr.lowerBytes k.toBytes = PyStr.lowerBytes k'.toBytes → k = k') : Regular es := by
  have hn : ∀ k, Names es k → k ∈ classes :: es.flatMap (fun e => e.attrs.map (·.1)) := by
    rintro k (rfl | ⟨e, he, vs, hm⟩)
    · exact List.mem_cons_self
    · exact List.mem_cons_of_mem _ (List.mem_flatMap.mpr ⟨e, he, List.mem_map.mpr ⟨_, hm, rfl⟩⟩)
  refine ⟨h1, fun e he p hp => ?_, fun k k' hk hk' hs => h3 k (hn k hk) k' (hn k' hk') hs, fun e he p hp v hv => ?_⟩
  · obtain ⟨a, b, c, d, e', f, g, _⟩ := h2 e he p hp
    refine ⟨?_, ⟨b, c, d, e'⟩, f⟩
    cases hk : p.1 with
    | text s => rw [hk] at g; cases g
    | bytes b => rw [hk] at a; exact a
  · obtain ⟨_, _, _, _, _, _, _, g⟩ := h2 e he p hp
    obtain ⟨a, b⟩ := g v hv
    refine PyStr.ascii_decodable ?_
    cases hk : v with
    | text s => rw [hk] at a; cases a
    | bytes c => rw [hk] at b; exact b

/-- A file: `cn=a`, and `cn=b` with `cn=c` below it. -/
def before : Bytes :=
  ascii "version: 1\n\ndn: o=x\no: x\n\ndn: cn=a,o=x\ncn: a\nd: 1\nd: 2\n\ndn: cn=b,o=x\ncn: b\n\ndn: cn=c,cn=b,o=x\ncn: c\n\n"

/-- Another: `cn=a` with other values, and `cn=d` with `cn=c` below it. -/
def after : Bytes :=
  ascii "dn: o=x\no: x\n\ndn: cn=d,o=x\ncn: d\n\ndn: cn=c,cn=d,o=x\ncn: c\n\ndn: cn=a,o=x\ncn: a\nd: 2\nd: 3\n\n"

/-- An entry with one kind of attribute types. -/
def entry (dn : List Str) (attrs : List (String × List String)) : Entry :=
  ⟨dn.map (fun v => [⟨['c', 'n'], v⟩]) ++ [[⟨['o'], ['x']⟩]], attrs.map fun p => (.bytes (ascii p.1), p.2.map fun v => .bytes (ascii v))⟩

def wereThere : List Entry :=
  [entry [] [("o", ["x"])], entry [['a']] [("cn", ["a"]), ("d", ["1", "2"])], entry [['b']] [("cn", ["b"])], entry [['c'], ['b']] [("cn", ["c"])]]

def areThere : List Entry :=
  [entry [] [("o", ["x"])], entry [['d']] [("cn", ["d"])], entry [['c'], ['d']] [("cn", ["c"])], entry [['a']] [("cn", ["a"]), ("d", ["2", "3"])]]

/-- What is written. -/
def changes : Bytes :=
  ascii "dn: cn=a,o=x\nchangetype: modify\nadd: d\nd: 3\n-\ndelete: d\nd: 1\n-\n\ndn: cn=d,o=x\nchangetype: add\ncn: d\n\ndn: cn=c,cn=d,o=x\nchangetype: add\ncn: c\n\ndn: cn=c,cn=b,o=x\nchangetype: delete\n\ndn: cn=b,o=x\nchangetype: delete\n\n"

example : ∃ ha hb ops ops' h', LoadLdif.fromLDIFFile C84.plain [before] = .ok (.fired ha) ∧
    LoadLdif.fromLDIFFile C84.plain [after] = .ok (.fired hb) ∧ diffTree asciiTables C27.plainly ha hb = .ok ops ∧
    opTexts C84.plain ops = .ok changes ∧
    fromLDIFFile asciiTables [Ldif.header, changes.take 40, changes.drop 40] = .ok ops' ∧
    applyAll C84.plain C27.plainly ha ops' = h' ∧ Has asciiTables h' areThere := by
  obtain ⟨ha, hb, ops, t, h1, h2, h3, h4, h5⟩ := files_partial (env := C84.plain) (o := C27.plainly) (o' := C27.plainly) asciiTables_sane
    (fun _ => .refl _) (fun _ => .refl _) [before] [after] (entry [] [("o", ["x"])]) (entry [] [("o", ["x"])]) wereThere.tail areThere.tail
    (by decide +kernel) (by decide +kernel) ((C84.aborting_none_iff _ _ _).mp (by decide +kernel))
    ((C84.aborting_none_iff _ _ _).mp (by decide +kernel)) (C84.alike_of (by decide +kernel))
    (regular_of (by decide +kernel) (by decide +kernel) (by decide +kernel)) (by decide +kernel) (by
      have : ∀ e ∈ areThere, ∃ p ∈ e.attrs, ∃ v ∈ p.2, v = v := by decide +kernel
      intro e he
      obtain ⟨p, hp, v, hv, _⟩ := this e he
      exact ⟨p.1, v, p.2, ⟨p.1, hp, rfl⟩, hv⟩)
  have ht : t = changes := by
    have : (match LoadLdif.fromLDIFFile C84.plain [before], LoadLdif.fromLDIFFile C84.plain [after] with
      | .ok (.fired a), .ok (.fired b) => (diffTree asciiTables C27.plainly a b >>= opTexts C84.plain).toOption
      | _, _ => none) = some changes := by decide +kernel
    rw [h1, h2] at this
    simp only [show diffTree asciiTables C27.plainly ha hb = .ok ops from h3, bind, Except.bind, h4] at this
    exact Option.some.inj this
  rw [ht] at h4 h5
  obtain ⟨ops', h', k1, _, k3, k4⟩ := h5 _ (.inl rfl) (C29.short (by decide +kernel)) [Ldif.header, changes.take 40, changes.drop 40] (by decide +kernel)
  exact ⟨ha, hb, ops, ops', h', h1, h2, h3, h4, k1, k3, k4⟩

end Verif.C91
