import Verif.Props.C25
import Verif.Props.C68
import Verif.Lemmas.RenameOk
/-
C77  A rename request moves the entry it names to the name it gives.

`renamed_partial` says so for a leaf, after any conversation of C68, of which this is the first rename.  Missing are entries
with entries below them, names that are taken, moves below the entry itself and later renames: there the request is answered
with success and entries are lost (C25).  A rename that fails is not undone: `failed_not_undone`.
-/
namespace Verif.C77
open Verif.Ldap Verif.Spec Verif.Server Verif.Tree Verif.C68

/-- The RDN in a request. -/
def NamesRdn (U : Unicode) (b : Bytes) (r : Dn.Rdn) : Prop := ∃ s, Utf8.decode b = .ok s ∧ Dn.Rdn.parse U s = .ok r

/-- RFC 4511 section 4.9: the new parent is the one given, and otherwise the one the entry has. -/
inductive Parent (U : Unicode) (d : Dn.Dn) : Option Bytes → Dn.Dn → Prop where
  | kept : Parent U d none d.tail
  | given {b p} : Names U b p → Parent U d (some b) p

/-- A rename request, as it is to be understood. -/
structure Asks (U : Unicode) (dn newrdn : Bytes) (sup : Option Bytes) (d : Dn.Dn) (r : Dn.Rdn) (p : Dn.Dn) : Prop where
  entry : Names U dn d
  rdn : NamesRdn U newrdn r
  parent : Parent U d sup p

variable {env : Env} {luck : Luck} {st : State} {i : Int} {dn newrdn : Bytes} {sup : Option Bytes} {d p : Dn.Dn} {r : Dn.Rdn}

theorem readRdn_names {U : Unicode} {b : Bytes} {r : Dn.Rdn} (h : NamesRdn U b r) : readRdn U (.bytes b) = .ok r := by
  obtain ⟨s, h1, h2⟩ := h
  simp only [readRdn, h1, bind, Except.bind]; exact h2

theorem superior_parent {U : Unicode} (h : Parent U d sup p) : superior U d (optVal sup) = .ok p := by
  cases h with
  | kept => simp [superior, optVal, Dn.Dn.up]
  | given h => simpa [superior, optVal] using readDn_names h

theorem target (ha : Asks env.U dn newrdn sup d r p) (h : Heap) (del : Bool) :
    modifyDNTarget env h (.bytes dn) (.bytes newrdn) (boolVal del) (optVal sup) none =
      if del then lift (lookup env.U h 0 d) |>.map fun j => (j, r :: p)
      else .error (.ldap 53 (.text (ascii "Cannot handle preserving old RDN yet."))) := by
  cases del with
  | false =>
    simp [modifyDNTarget, checkControls, readDn_names ha.entry, readRdn_names ha.rdn, checkDeleteOld, boolVal, PyVal.truthy, lift, bind,
      Except.bind]
  | true =>
    simp only [modifyDNTarget, checkControls, readDn_names ha.entry, readRdn_names ha.rdn, checkDeleteOld, boolVal, PyVal.truthy, lift, bind,
      Except.bind, superior_parent ha.parent, pure, Except.pure]
    cases lookup env.U h 0 d <;> simp [Except.map]

/-- The request to rename. -/
def ask (i : Int) (dn newrdn : Bytes) (del : Bool) (sup : Option Bytes) : Obj := .message (.int i) (Op.modifyDN dn newrdn del sup).build none

theorem encodes_answer (hi : 0 < i ∧ i < 2 ^ 31) (c : Int) (m : Bytes) (hc : 0 ≤ c ∧ c < 1024) (hm : m.length < 2 ^ 40) :
    encodes (.int i) (Op.result .modifyDN c [] m).build = true :=
  encodes_op i _ ⟨by omega, hi.2⟩ (size_result .modifyDN hc [] (by simp) hm)

theorem serve_refused (hi : 0 < i ∧ i < 2 ^ 31) {del : Bool} {f : Fault} {h' : Heap} {c : Int} {m : Bytes}
    (hh : handleModifyDN env st.heap (.bytes dn) (.bytes newrdn) (boolVal del) (optVal sup) none = (h', .error f))
    (hf : f.report luck = (c, .text m)) (hc : 0 ≤ c ∧ c < 1024) (hm : m.length < 2 ^ 40) :
    serve env luck st (ask i dn newrdn del sup) = some ⟨{ st with heap := h' }, [(.int i, (Op.result .modifyDN c [] m).build)]⟩ := by
  have hi0 : PyVal.int i ≠ .int 0 := by intro h; cases h; omega
  have henc := encodes_answer hi c m hc hm
  simp only [Op.build, ResultKind.cls, ResultKind.tag] at henc
  simp only [ask, serve, Op.build, isRequest, if_true, if_neg hi0, call, hh, final, hf, failWith, respond, Message.value]
  simp [henc, ResultKind.cls, ResultKind.tag]

theorem serve_done (hi : 0 < i ∧ i < 2 ^ 31) {del : Bool} {h' : Heap}
    (hh : handleModifyDN env st.heap (.bytes dn) (.bytes newrdn) (boolVal del) (optVal sup) none =
      (h', .ok (respond .modifyDNResponse 0x4D 0 .none))) :
    serve env luck st (ask i dn newrdn del sup) = some ⟨{ st with heap := h' }, [(.int i, (Op.result .modifyDN 0 [] []).build)]⟩ := by
  have hi0 : PyVal.int i ≠ .int 0 := by intro h; cases h; omega
  have henc := encodes_answer hi 0 [] (by omega) (by simp)
  simp only [Op.build, ResultKind.cls, ResultKind.tag] at henc
  simp only [ask, serve, Op.build, isRequest, if_true, if_neg hi0, call, hh, final, respond, Message.value]
  simp [henc, ResultKind.cls, ResultKind.tag]

theorem final_eq {id : PyVal} {o : Obj} {x : PyVal × Obj} (h : final id o = [x]) : x = (id, o) := by
  unfold final at h
  split at h <;> simp_all

/-- A request to keep the old RDN is refused, and nothing changes. -/
theorem keeping_old_refused (ha : Asks env.U dn newrdn sup d r p) (hi : 0 < i ∧ i < 2 ^ 31) :
    serve env luck st (ask i dn newrdn false sup) =
      some ⟨st, [(.int i, (Op.result .modifyDN 53 [] (ascii "Cannot handle preserving old RDN yet.")).build)]⟩ :=
  serve_refused (f := .ldap 53 (.text (ascii "Cannot handle preserving old RDN yet."))) hi
    (by simp only [handleModifyDN, target ha]; rfl) rfl (by omega) (by decide +kernel)

/-- An entry that is not there cannot be renamed, and nothing changes. -/
theorem missing_entry (ha : Asks env.U dn newrdn sup d r p) (hi : 0 < i ∧ i < 2 ^ 31) (hf : ∀ e, Fit (luck.text e))
    (hl : lookup env.U st.heap 0 d = .error .noSuchObject) :
    ∃ m, serve env luck st (ask i dn newrdn true sup) = some ⟨st, [(.int i, (Op.result .modifyDN 32 [] m).build)]⟩ :=
  ⟨luck.text .noSuchObject, serve_refused (f := .py .noSuchObject) hi (by simp only [handleModifyDN, target ha, hl]; rfl) rfl (by omega)
    (by have := hf .noSuchObject; unfold Fit at this; omega)⟩

/-! After a conversation. -/

/-- The directory after a conversation of C68 that began with a single entry. -/
structure Reached (env : Env) (root : Dn.Dn) (c : List (Int × Op × List (PyVal × Obj))) (st : State) : Prop where
  talk : ∃ as bound, Conversation env ⟨single ⟨root, buildAttrs env.U as⟩, bound⟩ c st
  good : Good env.U c

variable {root : Dn.Dn} {c : List (Int × Op × List (PyVal × Obj))}

theorem Reached.sim (h : Reached env root c st) (ha : Asks env.U dn newrdn sup d r p)
    (halike : ∀ x ∈ c, ∀ r', AddsRdn env.U x.2.1 r' → Dn.Rdn.eq env.U r r' = true → r = r') :
    ∃ R D, Spelled env.U R ∧ R r ∧ Sim env.U R (Spec.foldDn env.U root) st.heap D := by
  obtain ⟨as, bound, hc⟩ := h.talk
  have hR0 := h.good.spelled
  have hR : Spelled env.U (fun x => x = r ∨ ∃ y ∈ c, AddsRdn env.U y.2.1 x) := by
    refine ⟨fun x hx => ?_, fun x y hx hy e => ?_⟩
    · rcases hx with rfl | hx
      · obtain ⟨s, _, hs⟩ := ha.rdn
        intro a ha
        obtain ⟨t, _, ht⟩ := Dn.mapPy_mem hs a ha
        exact Dn.Ava.read_plain ht
      · exact hR0.plain x hx
    · rcases hx with e1 | hx <;> rcases hy with e2 | hy
      · rw [e1, e2]
      · subst e1
        obtain ⟨z, hz, hz'⟩ := hy
        exact halike z hz y hz' ((Dn.Rdn.eq_iff env.U _ _).mpr e)
      · subst e2
        obtain ⟨z, hz, hz'⟩ := hx
        exact (halike z hz x hz' ((Dn.Rdn.eq_iff env.U _ _).mpr e.symm)).symm
      · exact hR0.alike x y hx hy e
  obtain ⟨D, _, hs⟩ := conversation_sim hR hc (C24.single_sim env.U root as _) h.good.ids h.good.ops
    (fun x hx r hr => .inr ⟨x, hx, hr⟩)
  exact ⟨_, D, hR, .inl rfl, hs⟩

/-- The entry that a DN other than that of the root finds, and its parent. -/
theorem found {R : Dn.Rdn → Prop} {name : Name} {h : Heap} {D : Directory} {U : Unicode} (hs : Sim U R name h D) (hR : Spelled U R) {j : Nat}
    (hl : lookup U h 0 d = .ok j) (hroot : Spec.foldDn U d ≠ name) :
    ∃ n q pn old d', h[j]? = some n ∧ Below h 0 j ∧ j ≠ 0 ∧ n.entry.dn = old :: d' ∧ Spec.foldDn U n.entry.dn = Spec.foldDn U d ∧
      n.parent = some q ∧ h[q]? = some pn ∧ pn.entry.dn = d' ∧ Below h 0 q ∧ q < j ∧ (old.text, j) ∈ pn.children := by
  obtain ⟨hb, e⟩ := (lookup_iff hs.inv (hs.named.distinct hR hs.inv) hs.pos d j).mp hl
  have hj := hb.lt_length hs.inv hs.pos
  have hn := List.getElem?_eq_getElem hj
  have hj0 : j ≠ 0 := by
    rintro rfl
    exact hroot (by rw [← e, hs.rootName])
  obtain ⟨l, hl'⟩ := hb
  rcases path_snoc hl' with ⟨rfl, e0⟩ | ⟨m, q, k, rfl, hm, hc⟩
  · exact absurd e0.symm hj0
  · obtain ⟨pn, hpn, hcm⟩ := hc
    obtain ⟨h1, n', r', hn', hpar, hdn, hk⟩ := hs.inv.links q pn k j hpn hcm
    rw [hn] at hn'
    cases hn'
    rw [dnOf_eq hn] at e
    exact ⟨h[j], q, pn, r', pn.entry.dn, hn, ⟨_, hl'⟩, hj0, hdn, e, hpar, hpn, rfl, ⟨m, hm⟩, hs.inv.lt ⟨pn, hpn, hcm⟩, hk ▸ hcm⟩

/-- A new parent that is not there: nothing is renamed, and nothing changes. -/
theorem missing_parent (hreach : Reached env root c st) (ha : Asks env.U dn newrdn sup d r p)
    (halike : ∀ x ∈ c, ∀ r', AddsRdn env.U x.2.1 r' → Dn.Rdn.eq env.U r r' = true → r = r')
    (hi : 0 < i ∧ i < 2 ^ 31) (hf : ∀ e, Fit (luck.text e)) {j : Nat} (hl : lookup env.U st.heap 0 d = .ok j)
    (hroot : Dn.Dn.eq env.U d root = false) (hp : lookup env.U st.heap 0 p = .error .noSuchObject) :
    ∃ m, serve env luck st (ask i dn newrdn true sup) = some ⟨st, [(.int i, (Op.result .modifyDN 32 [] m).build)]⟩ := by
  obtain ⟨R, D, hR, hr, hs⟩ := hreach.sim ha halike
  obtain ⟨n, q, pn, old, d', hn, hb, hj0, hdn, e, hpar, hpn, hpd, hbq, _, _⟩ := found hs hR hl
    (fun e => by rw [(Dn.Dn.eq_iff env.U _ _).mpr e] at hroot; cases hroot)
  refine ⟨luck.text .noSuchObject, serve_refused (h' := st.heap) (f := .py .noSuchObject) hi ?_ rfl (by omega)
    (by have := hf .noSuchObject; unfold Fit at this; omega)⟩
  have hup : Dn.Dn.eq env.U (Dn.Dn.up (r :: p)) (Dn.Dn.up (dnOf st.heap j)) = false := by
    cases hx : Dn.Dn.eq env.U (Dn.Dn.up (r :: p)) (Dn.Dn.up (dnOf st.heap j)) with
    | false => rfl
    | true =>
      have := (Dn.Dn.eq_iff env.U _ _).mp hx
      rw [dnOf_eq hn, hdn] at this
      have hlk := (lookup_iff hs.inv (hs.named.distinct hR hs.inv) hs.pos p q).mpr ⟨hbq, by rw [dnOf_eq hpn, hpd]; exact this.symm⟩
      rw [hlk] at hp; cases hp
  obtain ⟨l, hl'⟩ := hb
  have hclimb := C25.climb_root hs.inv hs.rooted l j (st.heap.length + 1) hl'
    (by have := (Inv.linked (U := env.U) hs.inv).path_length hl'; omega)
  have : move env.U st.heap j (r :: p) = (st.heap, some .noSuchObject) := by
    unfold move
    rw [if_pos (by simp [hup]), hclimb]
    simp only [Dn.Dn.up, List.drop_succ_cons, List.drop_zero, hp]
  simp only [handleModifyDN, target ha, hl, if_true, lift, Except.map, this]

/-- What a rename request for the entry at node `j` is to bring about. -/
structure Renamed (U : Unicode) (h h' : Heap) (j : Nat) (d new : Dn.Dn) (old r : Dn.Rdn) : Prop where
  /-- the new name finds the entry, the old one nothing, any other what it found before -/
  here : lookup U h' 0 new = .ok j
  gone : lookup U h' 0 d = .error .noSuchObject
  other : ∀ q, Dn.Dn.eq U q d = false → Dn.Dn.eq U q new = false → lookup U h' 0 q = lookup U h 0 q
  /-- no other entry has changed -/
  untouched : ∀ k, k ≠ j → (h'[k]?).map (·.entry) = (h[k]?).map (·.entry)
  /-- it has the new DN, the values of the new RDN, those of the old one no more, and otherwise what it had -/
  dn : (entryAt h' j).dn = new
  gained : ∀ v ∈ r, Rename.HasValue U (entryAt h' j) v.attributeType v.value
  lost : (∀ v ∈ old, Rename.NoTwins U (entryAt h j) v.attributeType) →
    ∀ v ∈ old, (∀ w ∈ r, Rename.SameType U v.attributeType w.attributeType → w.value ≠ v.value) →
      ¬ Rename.HasValue U (entryAt h' j) v.attributeType v.value
  kept : ∀ s, (∀ v ∈ old ++ r, ¬ Rename.SameType U s v.attributeType) → (entryAt h' j).get U (.text s) = (entryAt h j).get U (.text s)

/-- The request asks for a leaf other than the root to be moved to a name that is free, not below itself, and below an
entry that is there. -/
structure Possible (U : Unicode) (h : Heap) (root d : Dn.Dn) (r : Dn.Rdn) (p : Dn.Dn) (j : Nat) : Prop where
  found : lookup U h 0 d = .ok j
  notRoot : Dn.Dn.eq U d root = false
  leaf : ∀ x k, lookup U h 0 (x :: d) ≠ .ok k
  free : ∀ k, lookup U h 0 (r :: p) ≠ .ok k
  apart : Dn.Dn.eq U p d = false

/-- `renamed_partial` for a tree that is in step with a finite map. -/
theorem renamed_sim {R : Dn.Rdn → Prop} {D : Directory} (hR : Spelled env.U R) (hr : R r) (hs : Sim env.U R (Spec.foldDn env.U root) st.heap D)
    (ha : Asks env.U dn newrdn sup d r p) (hi : 0 < i ∧ i < 2 ^ 31) {j : Nat} (hp : Possible env.U st.heap root d r p j) :
    ∃ old d' s, (entryAt st.heap j).dn = old :: d' ∧ Dn.Dn.eq env.U (old :: d') d = true ∧
      serve env luck st (ask i dn newrdn true sup) = some s ∧ s.state.bound = st.bound ∧
      (s.sent = [(.int i, (Op.result .modifyDN 0 [] []).build)] → Renamed env.U st.heap s.state.heap j d (r :: p) old r) ∧
      ((∃ k, lookup env.U st.heap 0 p = .ok k) → Rename.Renamable env.U (entryAt st.heap j) old r →
        s.sent = [(.int i, (Op.result .modifyDN 0 [] []).build)]) ∧
      (s.sent = [(.int i, (Op.result .modifyDN 0 [] []).build)] ∨
        ∃ c m, c ≠ 0 ∧ s.sent = final (.int i) (Op.result .modifyDN c [] m).build) := by
  obtain ⟨n, q, pn, old, d', hn, hb, hj0, hdn, e, hpar, hpn, hpd, hbq, hqj, hmem⟩ := found hs hR hp.found
    (fun e => by have := hp.notRoot; rw [(Dn.Dn.eq_iff env.U _ _).mpr e] at this; cases this)
  have hat : entryAt st.heap j = n.entry := by simp [entryAt, hn]
  have hd := hs.named.distinct hR hs.inv
  have hleaf : n.children = [] := by
    cases hch : n.children with
    | nil => rfl
    | cons kc cs =>
      exfalso
      obtain ⟨k, x⟩ := kc
      have hc : ChildAs st.heap j k x := ⟨n, hn, by rw [hch]; simp⟩
      obtain ⟨rdn, h1, _⟩ := hc.dn hs.inv
      obtain ⟨l, hl⟩ := hb
      refine hp.leaf rdn x ((lookup_iff hs.inv hd hs.pos _ _).mpr ⟨⟨_, path_append hl (.down hc (.here x))⟩, ?_⟩)
      rw [h1, dnOf_eq hn]
      simp only [Spec.foldDn, List.map_cons, List.cons.injEq, true_and] at e ⊢
      exact e
  have heq : ∀ q, Dn.Dn.eq env.U q n.entry.dn = Dn.Dn.eq env.U q d := by
    intro q
    rw [Bool.eq_iff_iff, Dn.Dn.eq_iff, Dn.Dn.eq_iff, e]
  have hself : Dn.Dn.eq env.U p n.entry.dn = false := by rw [heq]; exact hp.apart
  cases hm : move env.U st.heap j (r :: p) with
  | mk h' x =>
  have hh : handleModifyDN env st.heap (.bytes dn) (.bytes newrdn) (boolVal true) (optVal sup) none =
      match x with
      | none => (h', .ok (respond .modifyDNResponse 0x4D 0 .none))
      | some e => (h', .error (.py e)) := by
    simp only [handleModifyDN, target ha, hp.found, if_true, lift, Except.map, hm]
    cases x <;> rfl
  have hdone : x = none → serve env luck st (ask i dn newrdn true sup) =
      some ⟨{ st with heap := h' }, [(.int i, (Op.result .modifyDN 0 [] []).build)]⟩ := by
    rintro rfl; exact serve_done hi hh
  have hi0 : PyVal.int i ≠ .int 0 := by intro h; cases h; omega
  obtain ⟨s, hserve, hheap, hbound, hfail, hreply⟩ : ∃ s, serve env luck st (ask i dn newrdn true sup) = some s ∧ s.state.heap = h' ∧
      s.state.bound = st.bound ∧ (x ≠ none → s.sent ≠ [(.int i, (Op.result .modifyDN 0 [] []).build)]) ∧
      (s.sent = [(.int i, (Op.result .modifyDN 0 [] []).build)] ∨
        ∃ c m, c ≠ 0 ∧ s.sent = final (.int i) (Op.result .modifyDN c [] m).build) := by
    cases x with
    | none => exact ⟨_, hdone rfl, rfl, rfl, fun h => absurd rfl h, .inl rfl⟩
    | some er =>
      have hne : (ldapCode er).getD 2 ≠ 0 := by cases er <;> simp [ldapCode]
      simp only [ask, serve, Op.build, isRequest, if_true, if_neg hi0, call, hh]
      refine ⟨_, rfl, rfl, rfl, fun _ => ?_, .inr ⟨(ldapCode er).getD 2, luck.text er, hne, rfl⟩⟩
      intro h
      have h := final_eq h
      simp only [failWith, respond, Fault.report, Op.build, Prod.mk.injEq, true_and, Obj.result.injEq, PyVal.int.injEq] at h
      exact hne h.2.2.1.symm
  refine ⟨old, d', s, by rw [hat]; exact hdn, by rw [← hdn]; exact (Dn.Dn.eq_iff env.U _ _).mpr e, hserve, hbound, ?_, ?_, hreply⟩
  · intro hsent
    have hx : x = none := Classical.byContradiction fun h => hfail h hsent
    subst hx
    obtain ⟨c1, c2, c3⟩ := C25.move_leaf_sim hs hR hr hn hb hj0 hleaf hp.free hself hm
    obtain ⟨n', v1, v2, v3, v4, v5⟩ := C25.renamed_values hn hdn hm
    have hat' : entryAt h' j = n'.entry := by simp [entryAt, v1]
    rw [hheap]
    refine ⟨c1, ?_, fun q h1 h2 => c3 q (by rw [heq]; exact h1) h2, fun k hk => ?_, by rw [hat']; exact v2, by rw [hat']; exact v3,
      by rw [hat, hat']; exact v4, by rw [hat, hat']; exact v5⟩
    · exact c2 d e.symm
    · have := Rename.move_other (U := env.U) (h := st.heap) (newDN := r :: p) hk
      rw [hm] at this
      exact this
  · rintro ⟨k, hk⟩ hren
    rw [hat] at hren
    have hx : x = none := by
      obtain ⟨hbk, hke⟩ := (lookup_iff hs.inv hd hs.pos p k).mp hk
      have hkl := hbk.lt_length hs.inv hs.pos
      have hkn := List.getElem?_eq_getElem hkl
      have hmo : ∃ h'', move env.U st.heap j (r :: p) = (h'', none) := by
        unfold move
        split
        · rename_i hup
          obtain ⟨l, hl⟩ := hb
          rw [C25.climb_root hs.inv hs.rooted l j _ hl (by have := (Inv.linked (U := env.U) hs.inv).path_length hl; omega)]
          simp only [Dn.Dn.up, List.drop_succ_cons, List.drop_zero, hk]
          refine Rename.move2_some_ok hn hdn hren hkn hpar hpn ?_ ?_ (by omega) (List.mem_map_of_mem (f := (·.1)) hmem)
          · rintro rfl
            rw [hpn] at hkn
            rw [dnOf_eq hpn, hpd] at hke
            rw [dnOf_eq hn, hdn] at hup
            simp only [Dn.Dn.up, List.drop_succ_cons, List.drop_zero, (Dn.Dn.eq_iff env.U p d').mpr hke.symm] at hup
            simp at hup
          · rintro rfl
            rw [dnOf_eq hn] at hke
            rw [(Dn.Dn.eq_iff env.U _ _).mpr hke.symm] at hself
            cases hself
        · exact Rename.move2_none_ok hn hdn hren
      obtain ⟨h'', hmo⟩ := hmo
      rw [hm] at hmo
      exact congrArg Prod.snd hmo
    rw [hdone hx] at hserve
    cases hserve
    rfl

/-- A rename request that is answered with success has renamed the entry.  It is answered with success if the new parent is
there, the entry has the values of its RDN, and it has the attributes of the new RDN. -/
theorem renamed_partial (hreach : Reached env root c st) (ha : Asks env.U dn newrdn sup d r p)
    (halike : ∀ x ∈ c, ∀ r', AddsRdn env.U x.2.1 r' → Dn.Rdn.eq env.U r r' = true → r = r')
    (hi : 0 < i ∧ i < 2 ^ 31) {j : Nat} (hp : Possible env.U st.heap root d r p j) :
    ∃ old d' s, (entryAt st.heap j).dn = old :: d' ∧ Dn.Dn.eq env.U (old :: d') d = true ∧
      serve env luck st (ask i dn newrdn true sup) = some s ∧ s.state.bound = st.bound ∧
      (s.sent = [(.int i, (Op.result .modifyDN 0 [] []).build)] → Renamed env.U st.heap s.state.heap j d (r :: p) old r) ∧
      ((∃ k, lookup env.U st.heap 0 p = .ok k) → Rename.Renamable env.U (entryAt st.heap j) old r →
        s.sent = [(.int i, (Op.result .modifyDN 0 [] []).build)]) := by
  obtain ⟨R, D, hR, hr, hs⟩ := hreach.sim ha halike
  obtain ⟨old, d', s, h1, h2, h3, h4, h5, h6, _⟩ := renamed_sim (luck := luck) hR hr hs ha hi hp
  exact ⟨old, d', s, h1, h2, h3, h4, h5, h6⟩

/-! The hypotheses can be met. -/

/-- Adding two entries below the root. -/
def talk : List (Int × Op) := [
  (1, .add (ascii "ou=x,dc=a") []),
  (2, .add (ascii "cn=z,dc=a") [(ascii "cn", [ascii "z", ascii "q"]), (ascii "sn", [ascii "s"])])]

def start : State := ⟨single ⟨[[⟨['d','c'],['a']⟩]], []⟩, none⟩

def first : Served := (serve C40.env C40.luck start (.message (.int 1) (Op.add (ascii "ou=x,dc=a") []).build none)).getD default
def second : Served := (serve C40.env C40.luck first.state (.message (.int 2)
  (Op.add (ascii "cn=z,dc=a") [(ascii "cn", [ascii "z", ascii "q"]), (ascii "sn", [ascii "s"])]).build none)).getD default

theorem some_getD {α : Type} {o : Option α} {x : α} (h : o.isSome = true) : o = some (o.getD x) := by
  cases o with
  | none => cases h
  | some a => rfl

theorem good_talk {c : List (Int × Op × List (PyVal × Obj))} (h1 : c.map (fun x => (x.1, x.2.1)) = talk) : Good asciiTables c := by
  have hmem : ∀ x ∈ c, (x.1, x.2.1) ∈ talk := fun x hx => h1 ▸ List.mem_map_of_mem (f := fun x => (x.1, x.2.1)) hx
  have names : ∀ {b : Bytes} {s : List Char} {d : Dn.Dn}, ((Utf8.decode b).toOption = some s ∧
      (Dn.Dn.parse asciiTables s).toOption = some d) → Names asciiTables b d := fun h => names_of h.1 h.2
  refine ⟨fun x hx => ?_, fun x hx => ?_, fun x hx y hy r r' hr hr' e => ?_⟩
  · have : ∀ y ∈ talk, 0 < y.1 ∧ y.1 < 2 ^ 31 := by decide +kernel
    exact this _ (hmem x hx)
  · have : ∀ y ∈ talk, ∃ r, Means asciiTables y.2 r := by
      intro y hy
      simp only [talk, List.mem_cons, List.not_mem_nil, or_false] at hy
      rcases hy with rfl | rfl
      · exact ⟨_, .add (rdn := [⟨['o','u'],['x']⟩]) (parent := [[⟨['d','c'],['a']⟩]])
          (names (s := "ou=x,dc=a".toList) (by decide +kernel)) ⟨by decide +kernel, .nil, by decide +kernel⟩⟩
      · exact ⟨_, .add (rdn := [⟨['c','n'],['z']⟩]) (parent := [[⟨['d','c'],['a']⟩]])
          (names (s := "cn=z,dc=a".toList) (by decide +kernel)) ⟨by decide +kernel, by simp [SameName]; decide +kernel, by decide +kernel⟩⟩
    exact this _ (hmem x hx)
  · have key : ∀ {x : Int × Op × List (PyVal × Obj)} {r}, AddsRdn asciiTables x.2.1 r → rdnOf (x.1, x.2.1) = some r := by
      rintro ⟨i, op, sent⟩ r ⟨dn, as, parent, he, s, h1, h2⟩
      cases he
      simp [rdnOf, h1, h2, Except.toOption]
    have : ∀ y ∈ talk.filterMap rdnOf, ∀ z ∈ talk.filterMap rdnOf, Dn.Rdn.eq asciiTables y z = true → y = z := by decide +kernel
    exact this r (List.mem_filterMap.mpr ⟨_, hmem x hx, key hr⟩) r' (List.mem_filterMap.mpr ⟨_, hmem y hy, key hr'⟩) e

theorem reached : ∃ c, Reached C40.env [[⟨['d','c'],['a']⟩]] c second.state ∧ c.map (fun x => (x.1, x.2.1)) = talk := by
  have hf : ∀ e, Fit (C40.luck.text e) := fun e => by simp [C40.luck, Fit]
  exact ⟨_, ⟨⟨[], none, .cons (st := start) (some_getD (by decide +kernel) : _ = some first) hf
    (.cons (some_getD (by decide +kernel) : _ = some second) hf (.nil _))⟩, good_talk rfl⟩, rfl⟩

/-- Everything that `renamed_partial` asks for, also for the answer to be success: the second entry is moved below the first,
and gets another name there. -/
example : ∃ c d r p, Reached C40.env [[⟨['d','c'],['a']⟩]] c second.state ∧
    Asks C40.env.U (ascii "CN=z,dc=a") (ascii "cn=w") (some (ascii "ou=X,dc=a")) d r p ∧
    (∀ x ∈ c, ∀ r', AddsRdn C40.env.U x.2.1 r' → Dn.Rdn.eq C40.env.U r r' = true → r = r') ∧
    Possible C40.env.U second.state.heap [[⟨['d','c'],['a']⟩]] d r p 2 ∧
    lookup C40.env.U second.state.heap 0 p = .ok 1 ∧
    Rename.Renamable C40.env.U (entryAt second.state.heap 2) [⟨['c','n'],['z']⟩] r := by
  obtain ⟨c, hc, h1⟩ := reached
  have names : ∀ {b : Bytes} {s : List Char} {d : Dn.Dn}, ((Utf8.decode b).toOption = some s ∧
      (Dn.Dn.parse asciiTables s).toOption = some d) → Names asciiTables b d := fun h => names_of h.1 h.2
  have ok : ∀ {α : Type} {x : Py α} {a : α}, x.toOption = some a → x = .ok a := by
    intro α x a h
    cases x with
    | error => cases h
    | ok b => simpa [Except.toOption] using h
  have ha : Asks C40.env.U (ascii "CN=z,dc=a") (ascii "cn=w") (some (ascii "ou=X,dc=a")) [[⟨['C','N'],['z']⟩], [⟨['d','c'],['a']⟩]]
      [⟨['c','n'],['w']⟩] [[⟨['o','u'],['X']⟩], [⟨['d','c'],['a']⟩]] :=
    ⟨names (s := "CN=z,dc=a".toList) (by decide +kernel), ⟨"cn=w".toList, ok (by decide +kernel), ok (by decide +kernel)⟩,
      .given (names (s := "ou=X,dc=a".toList) (by decide +kernel))⟩
  have halike : ∀ x ∈ c, ∀ r', AddsRdn C40.env.U x.2.1 r' → Dn.Rdn.eq C40.env.U [⟨['c','n'],['w']⟩] r' = true → [⟨['c','n'],['w']⟩] = r' := by
    rintro ⟨i, op, sent⟩ hx r' ⟨dn, as, parent, he, s, h2, h3⟩ e
    cases he
    have hm : (i, Op.add dn as) ∈ talk := h1 ▸ List.mem_map_of_mem (f := fun x => (x.1, x.2.1)) hx
    have : ∀ z ∈ talk.filterMap rdnOf, Dn.Rdn.eq asciiTables [⟨['c','n'],['w']⟩] z = true → [⟨['c','n'],['w']⟩] = z := by decide +kernel
    refine this r' (List.mem_filterMap.mpr ⟨_, hm, ?_⟩) e
    have h3' : Dn.Dn.parse asciiTables s = .ok (r' :: parent) := h3
    simp [rdnOf, h2, h3', Except.toOption]
  refine ⟨c, _, _, _, hc, ha, halike, ?_, by decide +kernel, ?_⟩
  · refine ⟨by decide +kernel, by decide +kernel, fun x k hk => ?_, fun k hk => ?_, by decide +kernel⟩
    · obtain ⟨R, D, hR, _, hs⟩ := hc.sim ha halike
      obtain ⟨hb, e⟩ := (lookup_iff hs.inv (hs.named.distinct hR hs.inv) hs.pos _ k).mp hk
      have hlt := hb.lt_length hs.inv hs.pos
      have hlen : second.state.heap.length = 3 := by decide +kernel
      rw [hlen] at hlt
      have : ∀ k < 3, (foldDn asciiTables (dnOf second.state.heap k)).tail ≠
          foldDn asciiTables [[⟨['C','N'],['z']⟩], [⟨['d','c'],['a']⟩]] := by decide +kernel
      exact this k hlt (by
        have e' : foldDn asciiTables (dnOf second.state.heap k) = foldDn asciiTables (x :: [[⟨['C','N'],['z']⟩], [⟨['d','c'],['a']⟩]]) := e
        rw [e']; rfl)
    · have : lookup C40.env.U second.state.heap 0 [[⟨['c','n'],['w']⟩], [⟨['o','u'],['X']⟩], [⟨['d','c'],['a']⟩]] = .error .noSuchObject := by
        decide +kernel
      rw [this] at hk; cases hk
  · have hg : (entryAt second.state.heap 2).get C40.env.U (.text ['c','n']) = .ok (some [.bytes (ascii "z"), .bytes (ascii "q")]) := by
      decide +kernel
    refine ⟨?_, by simp, ?_⟩
    · intro a hm
      simp only [List.mem_cons, List.not_mem_nil, or_false] at hm
      subst hm
      exact ⟨_, hg, .bytes (ascii "z"), by simp, by decide +kernel⟩
    · intro b hm
      simp only [List.mem_cons, List.not_mem_nil, or_false] at hm
      subst hm
      exact ⟨_, hg⟩

/-! Where the claim fails. -/

/-- The codes of the answers. -/
def codes (l : List (PyVal × Obj)) : List (Option PyVal) := l.map fun m => match m.2 with | .result _ _ c _ _ _ => some c | _ => none

/-- A conversation with the server of the examples. -/
def run (l : List (Int × Op)) : State × List (PyVal × Obj) := serveAll C40.env start (l.map fun x => (C40.luck, .message (.int x.1) x.2.build none))

/-- A request to move an entry, with the names written out. -/
def moveOp (old : Dn.Dn) (r : Dn.Rdn) (p : Dn.Dn) : Op :=
  .modifyDN (Utf8.encode (Dn.Dn.text old)) (Utf8.encode (Dn.Rdn.text r)) true (some (Utf8.encode (Dn.Dn.text p)))

/-- A rename that is answered with an error code is not undone: neither name finds the entry afterwards. -/
theorem failed_not_undone : ∃ (l : List (Int × Op)) (i : Int) (old p : Dn.Dn) (r : Dn.Rdn) (c : Int) (j : Nat), c ≠ 0 ∧
    lookup asciiTables (run l).1.heap 0 old = .ok j ∧
    codes (run (l ++ [(i, moveOp old r p)])).2 = codes (run l).2 ++ [some (.int c)] ∧
    lookup asciiTables (run (l ++ [(i, moveOp old r p)])).1.heap 0 old = .error .noSuchObject ∧
    lookup asciiTables (run (l ++ [(i, moveOp old r p)])).1.heap 0 (r :: p) = .error .noSuchObject :=
  ⟨talk, 3, [[⟨['c','n'],['z']⟩], [⟨['d','c'],['a']⟩]], [[⟨['o','u'],['x']⟩], [⟨['d','c'],['a']⟩]], [⟨['u','i','d'],['z']⟩], 2, 2,
    by decide, by decide +kernel, by decide +kernel, by decide +kernel, by decide +kernel⟩

/-- An entry that was renamed can be found, but a request to delete it is answered with noSuchObject. -/
theorem renamed_not_deletable : ∃ (l : List (Int × Op)) (new : Dn.Dn) (i : Int) (j : Nat),
    lookup asciiTables (run l).1.heap 0 new = .ok j ∧
    codes (run (l ++ [(i, .delete (Utf8.encode (Dn.Dn.text new)))])).2 = codes (run l).2 ++ [some (.int 32)] ∧
    (run l).2.length = l.length :=
  ⟨talk ++ [(3, .modifyDN (ascii "cn=z,dc=a") (ascii "cn=w") true none)], [[⟨['c','n'],['w']⟩], [⟨['d','c'],['a']⟩]], 4, 2,
    by decide +kernel, by decide +kernel, by decide +kernel⟩

/-- The answers, and where the entry is found, when it is renamed in place. -/
example : codes (run (talk ++ [(3, .modifyDN (ascii "cn=z,dc=a") (ascii "cn=w") true none),
      (4, .modifyDN (ascii "cn=w,dc=a") (ascii "cn=v") false none), (5, .modifyDN (ascii "cn=z,dc=a") (ascii "cn=w") true none),
      (6, .modifyDN (ascii "cn=w,dc=a") (ascii "cn=w") true (some (ascii "ou=y,dc=a")))])).2 =
    [some (.int 0), some (.int 0), some (.int 0), some (.int 53), some (.int 32), some (.int 32)] := by decide +kernel

end Verif.C77
