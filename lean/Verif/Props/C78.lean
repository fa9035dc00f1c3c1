import Verif.Props.C77
import Verif.Lemmas.LdifEntry
/-
C78  An add request makes an entry with exactly the values it gives, however they are spread over the request.
-/
namespace Verif.C78
open Verif.Ldap Verif.Spec Verif.Server Verif.Tree Verif.C68
open Verif.Ldif (Under ByteNames)

/-- The new entry: its DN, and the values it has, none of them twice and no attribute under two names. -/
structure Holds (e : Entry) (dn : Dn.Dn) (as : Spec.Attrs) : Prop where
  dn : e.dn = dn
  values : ∀ (a : PyStr) (b : Bytes), HasValue e a b ↔ ∃ kv ∈ as, SameName (.bytes kv.1) a ∧ b ∈ kv.2
  once : ∀ p ∈ e.attrs, p.2.Nodup
  apart : (e.attrs.map (·.1)).Pairwise fun x y => ¬ SameName x y

theorem mem_collectExact {p : PyStr × List PyStr} {d : List (PyStr × List PyStr)} {k v : PyStr} :
    (∃ q ∈ collectExact p d, q.1 = k ∧ v ∈ q.2) ↔ (∃ q ∈ d, q.1 = k ∧ v ∈ q.2) ∨ (p.1 = k ∧ v ∈ p.2) := by
  induction d with
  | nil => simp [collectExact, Delta.mem_mkSet]
  | cons q d ih =>
    obtain ⟨k', vs⟩ := q
    simp only [collectExact]
    by_cases h : k' = p.1
    · rw [if_pos h]
      simp only [List.mem_cons, exists_eq_or_imp, Delta.mem_update]
      subst h
      constructor
      · rintro (⟨h1, h2 | h2⟩ | h2)
        · exact .inl (.inl ⟨h1, h2⟩)
        · exact .inr ⟨h1, h2⟩
        · exact .inl (.inr h2)
      · rintro ((⟨h1, h2⟩ | h2) | ⟨h1, h2⟩)
        · exact .inl ⟨h1, .inl h2⟩
        · exact .inr h2
        · exact .inl ⟨h1, .inr h2⟩
    · rw [if_neg h]
      simp only [List.mem_cons, exists_eq_or_imp, ih, or_assoc]

theorem collectExact_names {p : PyStr × List PyStr} {d : List (PyStr × List PyStr)} (hp : ∃ b, p.1 = .bytes b) (hd : ByteNames d) :
    ByteNames (collectExact p d) := by
  induction d with
  | nil =>
    intro q hq
    rw [List.mem_singleton.mp hq]; exact hp
  | cons q d ih =>
    obtain ⟨k, vs⟩ := q
    have h1 := hd (k, vs) List.mem_cons_self
    have h2 : ByteNames d := fun x hx => hd x (List.mem_cons_of_mem _ hx)
    simp only [collectExact]
    split
    · intro x hx
      rcases List.mem_cons.mp hx with rfl | hx
      · exact h1
      · exact h2 x hx
    · intro x hx
      rcases List.mem_cons.mp hx with rfl | hx
      · exact h1
      · exact ih h2 x hx

theorem collectExact_all {l d : List (PyStr × List PyStr)} (hl : ByteNames l) (hd : ByteNames d) :
    ByteNames (l.foldl (fun d p => collectExact p d) d) ∧ ∀ k v, (∃ q ∈ l.foldl (fun d p => collectExact p d) d, q.1 = k ∧ v ∈ q.2) ↔
      (∃ q ∈ d, q.1 = k ∧ v ∈ q.2) ∨ ∃ q ∈ l, q.1 = k ∧ v ∈ q.2 := by
  induction l generalizing d with
  | nil => exact ⟨hd, fun k v => by simp⟩
  | cons p l ih =>
    obtain ⟨h1, h2⟩ := ih (fun q hq => hl q (List.mem_cons_of_mem _ hq)) (collectExact_names (hl p List.mem_cons_self) hd)
    refine ⟨h1, fun k v => ?_⟩
    rw [List.foldl_cons, h2, mem_collectExact, or_assoc]
    simp only [List.mem_cons, exists_eq_or_imp]

theorem holds_build {U : Unicode} {as : Spec.Attrs} {d : List (PyStr × List PyStr)} (h : addAttributes (seqObj (as.map attrObj)) = .ok d)
    (dn : Dn.Dn) : Holds ⟨dn, buildAttrs U d⟩ dn as := by
  simp only [addAttributes, seqObj, Obj.iter, Obj.data?, mapM_attributeOf, bind, Except.bind, pure, Except.pure, Except.ok.injEq] at h
  have hl : ByteNames (stored as) := by
    intro p hp
    obtain ⟨kv, _, rfl⟩ := List.mem_map.mp hp
    exact ⟨_, rfl⟩
  obtain ⟨h1, h2⟩ := collectExact_all (d := []) hl (fun p hp => by cases hp)
  rw [h] at h1 h2
  obtain ⟨_, g2, g3, g4⟩ := Ldif.buildAttrs_facts (U := U) h1
  refine ⟨rfl, fun a b => ?_, g3, g2⟩
  rw [Ldif.hasValue_iff]
  simp only [g4]
  constructor
  · rintro ⟨v, ⟨p, hp, hs, hv⟩, e⟩
    rcases (h2 p.1 v).mp ⟨p, hp, rfl, hv⟩ with ⟨_, hq, _⟩ | ⟨q, hq, e1, hv'⟩
    · cases hq
    · obtain ⟨kv, hkv, rfl⟩ := List.mem_map.mp hq
      obtain ⟨w, hw, rfl⟩ := List.mem_map.mp hv'
      simp only at e1
      exact ⟨kv, hkv, by rw [e1]; exact hs, by simp only [PyStr.toBytes] at e; exact e ▸ hw⟩
  · rintro ⟨kv, hkv, hs, hb⟩
    obtain ⟨p, hp, e1, hv⟩ := (h2 (.bytes kv.1) (.bytes b)).mpr (.inr ⟨(.bytes kv.1, kv.2.map .bytes), List.mem_map.mpr ⟨kv, hkv, rfl⟩, rfl,
      List.mem_map.mpr ⟨b, hb, rfl⟩⟩)
    exact ⟨.bytes b, ⟨p, hp, by rw [e1]; exact hs, hv⟩, rfl⟩

variable {env : Env} {luck : Luck} {st : State} {i : Int} {dn : Bytes} {rdn : Dn.Rdn} {parent : Dn.Dn} {as : Spec.Attrs} {s : Served}

/-- The server, whatever it holds, gets any add request whatsoever and answers with success: then there is one entry more,
below the one that the parent's DN finds, with the values of the request; no other entry has changed. -/
theorem added (hn : Names env.U dn (rdn :: parent)) (hi : 0 < i ∧ i < 2 ^ 31)
    (hs : serve env luck st (.message (.int i) (Op.add dn as).build none) = some s)
    (hok : s.sent = [(.int i, (Op.result .add 0 [] []).build)]) :
    ∃ (p : Nat) (n : Node), lookup env.U st.heap 0 parent = .ok p ∧ s.state.heap.length = st.heap.length + 1 ∧
      s.state.heap[st.heap.length]? = some n ∧ ChildAs s.state.heap p rdn.text st.heap.length ∧
      Holds n.entry (rdn :: dnOf st.heap p) as ∧ s.state.bound = st.bound ∧
      ∀ k < st.heap.length, (s.state.heap[k]?).map (·.entry) = (st.heap[k]?).map (·.entry) := by
  have hi0 : PyVal.int i ≠ .int 0 := by intro h; cases h; omega
  have hr : Dn.Rdn.parse env.U rdn.text = .ok rdn := by
    obtain ⟨x, _, h2⟩ := hn
    exact Dn.Rdn.parse_text env.U rdn ((Dn.Dn.parse_good h2).plain rdn List.mem_cons_self)
  obtain ⟨d, hd⟩ : ∃ d, addAttributes (seqObj (as.map attrObj)) = .ok d := by
    simp only [addAttributes, seqObj, Obj.iter, Obj.data?, mapM_attributeOf, bind, Except.bind, pure, Except.pure]
    exact ⟨_, rfl⟩
  -- an exception is not answered with success
  have hfail : ∀ f, (∀ c m, f ≠ .ldap c m) → handleAdd env st.heap (.bytes dn) (seqObj (as.map attrObj)) none = .error f → False := by
    intro f hf hh
    simp only [serve, Op.build, isRequest, if_true, if_neg hi0, call, hh, onHeap, Option.some.injEq] at hs
    rw [← hs] at hok
    simp only [List.map_nil, List.nil_append] at hok
    have h := C77.final_eq hok
    cases f with
    | ldap c m => exact hf c m rfl
    | py e =>
      simp only [failWith, respond, Fault.report, Op.build, Prod.mk.injEq, true_and, Obj.result.injEq, PyVal.int.injEq] at h
      have hne : (ldapCode e).getD 2 ≠ 0 := by cases e <;> simp [ldapCode]
      exact hne h.2.2.1.symm
  have hh : handleAdd env st.heap (.bytes dn) (seqObj (as.map attrObj)) none =
      match lookup env.U st.heap 0 parent with
      | .error e => .error (.py e)
      | .ok p =>
        match Tree.addChild env.U st.heap p rdn d with
        | .error e => .error (.py e)
        | .ok x => .ok (x.1, respond .addResponse 0x49 0 .none) := by
    simp only [handleAdd, checkControls, hd, readDn_names hn, lift, bind, Except.bind, pure, Except.pure]
    cases lookup env.U st.heap 0 parent with
    | error e => rfl
    | ok p =>
      simp only [hr]
      cases Tree.addChild env.U st.heap p rdn d <;> rfl
  cases hl : lookup env.U st.heap 0 parent with
  | error e =>
    rw [hl] at hh
    exact (hfail _ (by simp) hh).elim
  | ok p =>
    rw [hl] at hh
    simp only at hh
    cases hx : Tree.addChild env.U st.heap p rdn d with
    | error e =>
      rw [hx] at hh
      exact (hfail _ (by simp) hh).elim
    | ok x =>
      rw [hx] at hh
      simp only at hh
      simp only [serve, Op.build, isRequest, if_true, if_neg hi0, call, hh, onHeap, Option.some.injEq] at hs
      subst hs
      unfold Tree.addChild at hx
      cases hp : st.heap[p]? with
      | none => simp [hp] at hx
      | some pn =>
        simp only [hp] at hx
        split at hx
        · cases hx
        · cases hx
          have hpl := (List.getElem?_eq_some_iff.mp hp).1
          refine ⟨p, ⟨⟨rdn :: pn.entry.dn, buildAttrs env.U d⟩, some p, []⟩, rfl, by simp, by simp, ?_, ?_, rfl, ?_⟩
          · refine ⟨{ pn with children := pn.children ++ [(rdn.text, st.heap.length)] }, ?_, by simp⟩
            rw [List.getElem?_append_left (by simpa using hpl), List.getElem?_set, if_pos rfl, if_pos hpl]
          · rw [dnOf_eq hp]
            exact holds_build hd _
          · intro k hk
            simp only
            rw [List.getElem?_append_left (by simpa using hk), List.getElem?_set]
            by_cases hpk : p = k
            · subst hpk
              rw [if_pos rfl, if_pos hpl, hp]; rfl
            · rw [if_neg hpk]

/-- The hypotheses can be met, with an attribute given twice under one spelling and once under another. -/
example : ∃ s dn, Names C40.env.U (ascii "cn=z,dc=a") dn ∧ dn.length = 2 ∧
    serve C40.env C40.luck C77.start (.message (.int 2) (Op.add (ascii "cn=z,dc=a")
      [(ascii "cn", [ascii "z"]), (ascii "CN", [ascii "y"]), (ascii "cn", [ascii "x", ascii "z"])]).build none) = some s ∧
    C77.codes s.sent = [some (.int 0)] ∧
    (entryAt s.state.heap 1).attrs = [(.bytes (ascii "cn"), [.bytes (ascii "x"), .bytes (ascii "z"), .bytes (ascii "y")])] := by
  refine ⟨_, [[⟨['c','n'],['z']⟩], [⟨['d','c'],['a']⟩]],
    names_of (U := asciiTables) (s := "cn=z,dc=a".toList) (by decide +kernel) (by decide +kernel), rfl,
    C77.some_getD (x := default) (by decide +kernel), ?_, ?_⟩ <;> decide +kernel

end Verif.C78
