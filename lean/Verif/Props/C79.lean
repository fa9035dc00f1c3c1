import Verif.Props.C78
/-
C79  A compare request is answered by whether the entry has the value.

`compared`: after any conversation of C68, for every assertion value that is UTF-8.  Values that are not UTF-8 cannot be
compared, also where the entry has them: `undecodable_value`.
-/
namespace Verif.C79
open Verif.Ldap Verif.Spec Verif.Server Verif.Tree Verif.C68

/-- The same octets up to the case of ASCII letters. -/
def SameOctets (x y : Bytes) : Prop := PyStr.lowerBytes x = PyStr.lowerBytes y

/-- RFC 4511 section 4.10: among these attributes, the one of this name has this value. -/
def Asserts (as : Spec.Attrs) (a v : Bytes) : Prop := ∃ kv ∈ as, SameOctets kv.1 a ∧ ∃ w ∈ kv.2, SameOctets w v

/-- The answer to a compare request, given the attributes of the entry if there is one. -/
inductive Answer (a v : Bytes) : Option Spec.Attrs → Int → Prop where
  | missing : Answer a v none 32
  | yes {as} : Asserts as a v → Answer a v (some as) 6
  | no {as} : ¬ Asserts as a v → Answer a v (some as) 5

theorem buildAttrs_stored {U : Unicode} {as : Spec.Attrs} (h : Proper as) : buildAttrs U (stored as) = stored as := by
  have key : ∀ (l d : List (PyStr × List PyStr)), Ldif.ByteNames (d ++ l) → (d ++ l).Pairwise (fun p q => ¬ SameName p.1 q.1) →
      l.foldl (collect U) d = d ++ l := by
    intro l
    induction l with
    | nil => intro d _ _; simp
    | cons p l ih =>
      intro d hb hp
      have hd : Ldif.ByteNames d := fun q hq => hb q (by simp [hq])
      have hf : Verif.Attrs.find U p.1 d = none := by
        cases hx : Verif.Attrs.find U p.1 d with
        | none => rfl
        | some vs =>
          obtain ⟨q, hq, hs⟩ := (Ldif.find_bytes (U := U) hd (hb p (by simp))).mp ⟨vs, hx⟩
          exact absurd hs ((List.pairwise_append.mp hp).2.2 q hq p (by simp))
      have hc : collect U d p = d ++ [p] := by simp only [collect, hf]
      rw [List.foldl_cons, hc, ih (d ++ [p]) (by simpa using hb) (by simpa using hp)]
      simp
  have hb : Ldif.ByteNames (stored as) := by
    intro p hp
    obtain ⟨kv, _, rfl⟩ := List.mem_map.mp hp
    exact ⟨_, rfl⟩
  have hp : (stored as).Pairwise (fun p q => ¬ SameName p.1 q.1) := by
    unfold stored
    rw [List.pairwise_map]
    exact h.names
  unfold buildAttrs
  rw [key (stored as) [] (by simpa using hb) (by simpa using hp), List.nil_append]
  refine (List.map_congr_left fun p hp => ?_).trans (List.map_id _)
  obtain ⟨k, vs⟩ := p
  simp only [id, mkSet_id (h.stored_values (k, vs) hp)]

theorem wellNamed_stored {U : Unicode} {as : Spec.Attrs} (h : Proper as) (dn : Dn.Dn) : WellNamed ⟨dn, buildAttrs U (stored as)⟩ := by
  rw [buildAttrs_stored h]
  refine ⟨?_, ?_⟩
  · intro k vs hm
    obtain ⟨kv, hkv, e⟩ := List.mem_map.mp hm
    cases e
    exact h.ascii kv hkv
  · simp only [stored]
    rw [List.pairwise_map]
    exact h.names

theorem hasAttr_stored {U : Unicode} {as : Spec.Attrs} (h : Proper as) {dn : Dn.Dn} {a v : Bytes} :
    (∃ vs w, HasAttr ⟨dn, buildAttrs U (stored as)⟩ (.bytes a) vs ∧ w ∈ vs ∧ SameValue U w (.bytes v)) ↔ Asserts as a v := by
  rw [buildAttrs_stored h]
  constructor
  · rintro ⟨vs, w, ⟨k, hk, hs⟩, hw, hv⟩
    obtain ⟨kv, hkv, e⟩ := List.mem_map.mp hk
    cases e
    obtain ⟨x, hx, rfl⟩ := List.mem_map.mp hw
    exact ⟨kv, hkv, hs, x, hx, hv⟩
  · rintro ⟨kv, hkv, hs, x, hx, hv⟩
    exact ⟨kv.2.map .bytes, .bytes x, ⟨.bytes kv.1, List.mem_map.mpr ⟨kv, hkv, rfl⟩, hs⟩, List.mem_map.mpr ⟨x, hx, rfl⟩, hv⟩

/-- The attributes in the map are those of the add requests. -/
theorem follows_stored {U : Unicode} {root : Name} {D D' : Directory} {c} (hf : Follows U root D c D')
    (hD : ∀ p ∈ D, ∃ as, p.2 = stored as ∧ Proper as) : ∀ p ∈ D', ∃ as, p.2 = stored as ∧ Proper as := by
  induction hf with
  | nil D => exact hD
  | read _ _ ih => exact ih hD
  | @request D i op r ops rest D' hm _ _ ih =>
    refine ih ?_
    cases hm with
    | @add dn as rdn parent hn hp =>
      simp only [Directory.step]
      repeat' split
      · exact hD
      · exact hD
      · intro p hp'
        rcases List.mem_append.mp hp' with h | h
        · exact hD p h
        · rw [List.mem_singleton.mp h]; exact ⟨as, rfl, hp⟩
    | delete hn =>
      simp only [Directory.step]
      repeat' split
      all_goals first
        | exact hD
        | exact fun p hp => hD p (List.mem_filter.mp hp).1

theorem serve_compare {env : Env} {luck : Luck} {st : State} {i : Int} {b a v : Bytes} {d : Dn.Dn} {c : Int} (hn : Names env.U b d)
    (hi : 0 < i ∧ i < 2 ^ 31) (hc : 0 ≤ c ∧ c < 1024)
    (h : ∃ r, (compareAt env st.heap d (.ava .ava 0x10 (octet a) (octet v)) = r ∧
      (r = .ok (respond .compareResponse 0x4F c .none) ∨ ∃ e, r = .error e ∧ e.reportSearch luck = (c, .none)))) :
    serve env luck st (.message (.int i) (Op.compare b a v).build none) =
      some ⟨st, [(.int i, (Op.result .compare c [] []).build)]⟩ := by
  have hi0 : PyVal.int i ≠ .int 0 := by intro h; cases h; omega
  have henc : encodes (.int i) (Op.result .compare c [] []).build = true :=
    encodes_op i _ ⟨by omega, hi.2⟩ (size_result .compare hc [] (by simp) (by simp))
  simp only [Op.build, ResultKind.cls, ResultKind.tag] at henc
  have hh : handleCompare env luck st.heap (.bytes b) (.ava .ava 0x10 (octet a) (octet v)) none = .ok (respond .compareResponse 0x4F c .none) := by
    obtain ⟨r, hr, h⟩ := h
    simp only [handleCompare, checkControls, readDn_names hn, lift, bind, Except.bind, pure, Except.pure, hr]
    rcases h with rfl | ⟨e, rfl, he⟩
    · rfl
    · simp only [he]
  simp only [serve, Op.build, isRequest, if_true, if_neg hi0, call, hh, final, respond, Message.value]
  simp [henc, ResultKind.cls, ResultKind.tag]

/-- After any conversation that adds, deletes and reads, the answer to a compare request with a value in UTF-8 is the one
that the finite map prescribes, and nothing changes. -/
theorem compared_partial (env : Env) (hU : Sane env.U) (dn : Dn.Dn) (as0 : Spec.Attrs) (h0 : Proper as0) (bound : Option Nat)
    (c : List (Int × Op × List (PyVal × Obj))) (st : State)
    (hc : Conversation env ⟨single ⟨dn, buildAttrs env.U (stored as0)⟩, bound⟩ c st) (hg : Good env.U c) :
    ∃ D, Follows env.U (Spec.foldDn env.U dn) [(Spec.foldDn env.U dn, stored as0)] c D ∧
      ∀ (luck : Luck) (i : Int) (b a v : Bytes) (d : Dn.Dn), 0 < i ∧ i < 2 ^ 31 → Names env.U b d → (PyStr.bytes a).Ascii →
        (PyStr.bytes v).Decodable →
        ∃ (as : Option Spec.Attrs) (code : Int), D.find (Spec.foldDn env.U d) = as.map stored ∧ Answer a v as code ∧
          serve env luck st (.message (.int i) (Op.compare b a v).build none) =
            some ⟨st, [(.int i, (Op.result .compare code [] []).build)]⟩ := by
  obtain ⟨D, h1, h2⟩ := conversation_partial env dn (stored as0) bound c st hc hg
  refine ⟨D, h1, fun luck i b a v d hi hn ha hv => ?_⟩
  have hst := follows_stored h1 (by
    intro p hp
    rw [List.mem_singleton.mp hp]
    exact ⟨as0, rfl, h0⟩)
  obtain ⟨hno, hyes⟩ := h2 d
  cases hf : D.find (Spec.foldDn env.U d) with
  | none =>
    refine ⟨none, 32, rfl, .missing, serve_compare hn hi (by omega) ⟨_, rfl, .inr ⟨.py .noSuchObject, ?_, rfl⟩⟩⟩
    simp only [compareAt, hno hf, lift, bind, Except.bind]
  | some as' =>
    obtain ⟨j, n, hl, hj, _, hat⟩ := hyes as' hf
    have hmem : (Spec.foldDn env.U d, as') ∈ D := by
      unfold Directory.find at hf
      obtain ⟨p, hp, rfl⟩ := Option.map_eq_some_iff.mp hf
      have h1 := List.find?_some hp
      have h2 := List.mem_of_find?_eq_some hp
      rw [← (beq_iff_eq.mp h1 : p.1 = _)]
      exact h2
    obtain ⟨as, e, hp⟩ := hst _ hmem
    simp only at e
    subst e
    have hent : n.entry = ⟨n.entry.dn, buildAttrs env.U (stored as)⟩ := by rw [← hat]
    obtain ⟨r, hr, hh⟩ := C17.equality_spec hU (wellNamed_stored (U := env.U) hp n.entry.dn) (.bytes a) (.bytes v) ha hv
    have ht : tryMatch env.U st.heap (assertion .equality (octet a) (octet v)) j = some r := by
      have : assertion .equality (octet a) (octet v) = .equality (.bytes a) (.bytes v) := by
        simp [assertion, octets?, octet, Obj.value, octetsOf]
      rw [this]
      rw [← hent] at hr
      simp only [tryMatch, hj, hr]
    cases r with
    | true =>
      refine ⟨some as, 6, rfl, .yes ?_, serve_compare hn hi (by omega) ⟨_, rfl, .inl ?_⟩⟩
      · cases hh with
        | equality_yes _ _ vs w g1 g2 g3 => exact (hasAttr_stored hp).mp ⟨vs, w, g1, g2, g3⟩
      · simp only [compareAt, hl, lift, bind, Except.bind, ht]; rfl
    | false =>
      refine ⟨some as, 5, rfl, .no ?_, serve_compare hn hi (by omega) ⟨_, rfl, .inl ?_⟩⟩
      · cases hh with
        | equality_no _ _ hno =>
          intro h
          obtain ⟨vs, w, g1, g2, g3⟩ := (hasAttr_stored (U := env.U) hp (dn := n.entry.dn)).mpr h
          exact hno vs w g1 g2 g3
      · simp only [compareAt, hl, lift, bind, Except.bind, ht]; rfl

/-- Everything that `compared_partial` asks for. -/
example : ∃ c d, Conversation C40.env ⟨single ⟨[[⟨['d','c'],['a']⟩]], buildAttrs C40.env.U (stored [])⟩, none⟩ c C77.second.state ∧
    Sane C40.env.U ∧ Proper [] ∧ Good C40.env.U c ∧ Names C40.env.U (ascii "CN=z,dc=a") d ∧ (PyStr.bytes (ascii "SN")).Ascii ∧
    (PyStr.bytes (ascii "S")).Decodable := by
  have hf : ∀ e, Fit (C40.luck.text e) := fun e => by simp [C40.luck, Fit]
  exact ⟨_, _, .cons (st := C77.start) (C77.some_getD (by decide +kernel) : _ = some C77.first) hf
    (.cons (C77.some_getD (by decide +kernel) : _ = some C77.second) hf (.nil _)), asciiTables_sane,
    ⟨by simp, .nil, by simp⟩, C77.good_talk rfl, names_of (s := "CN=z,dc=a".toList) (d := [[⟨['C','N'],['z']⟩], [⟨['d','c'],['a']⟩]])
      (by decide +kernel) (by decide +kernel), by decide +kernel, ['S'], by decide +kernel⟩

/-- The answers: the value is there up to case, another is not, the attribute is not there, the entry is not there. -/
example : C77.codes (C77.run (C77.talk ++ [(3, .compare (ascii "CN=z,dc=a") (ascii "SN") (ascii "S")),
      (4, .compare (ascii "cn=z,dc=a") (ascii "cn") (ascii "r")), (5, .compare (ascii "ou=x,dc=a") (ascii "cn") (ascii "z")),
      (6, .compare (ascii "cn=q,dc=a") (ascii "cn") (ascii "z"))])).2 =
    [some (.int 0), some (.int 0), some (.int 6), some (.int 5), some (.int 5), some (.int 32)] := by decide +kernel

/-- A value that is not UTF-8 can be stored, but a compare request with it is answered with an error. -/
theorem undecodable_value : ∃ (dn a v : Bytes) (as : Spec.Attrs), Proper as ∧ Asserts as a v ∧
    C77.codes (C77.run [(1, .add dn as), (2, .compare dn a v)]).2 = [some (.int 0), some (.int 80)] :=
  ⟨ascii "cn=z,dc=a", ascii "cn", [0xff], [(ascii "cn", [[0xff]])], ⟨by decide +kernel, by simp, by decide +kernel⟩,
    ⟨(ascii "cn", [[0xff]]), by simp, rfl, [0xff], by simp, rfl⟩, by decide +kernel⟩

end Verif.C79
