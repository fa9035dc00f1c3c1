import Verif.Lemmas.Exchange
import Verif.Lemmas.ServerModify
import Verif.Props.C50
import Verif.Props.C67
import Verif.Props.C75
/-
C76  What a program commits is what the server has.

`modify_answered`: the server carries out a modify request as RFC 4511 says, for requests that it has to accept.
`commit`: a program edits an entry, and commits; the request goes over the network, in any segments; the answer comes back, in
any segments.  Then the Deferred fires, the entry of the server has the content the program sees - the attributes the program
does not know of are as they were -, and the entry of the program knows it.

The entries of the server are as they get there through add requests: names and values are octets.  Values that are deleted
are UTF-8.  What the server should refuse is another matter: `exists_accepted`, `rdn_removed`.  `left_empty`: an attribute that
loses its last value is still there; a search for entries with this attribute finds the entry.  `not_deletable`: values that are
not UTF-8 cannot be deleted.
-/
namespace Verif.C76
open Verif.Ldap Verif.Spec Verif.Spec.Modify Verif.Server Verif.Tree Verif.Session Verif.C49
open Verif.Syntax (Edit edit addValue removeValue clearValues committed)

/-! ### The server -/

theorem valuesOf_octets (bs : List Bytes) : valuesOf (bs.map octet) = .ok (bs.map .bytes) := by
  induction bs with
  | nil => rfl
  | cons b bs ih =>
    rw [List.map_cons]
    simp only [valuesOf, ih]
    rfl

theorem modOf_change (m : Change) : modOf (changeObj m.wire) = .ok (Delta.modFor m) := by
  obtain ⟨kind, attr, values⟩ := m
  cases kind <;>
    simp [modOf, changeObj, seqObj, setObj, Change.wire, Obj.iter, Obj.data?, Obj.value, octetsOf, code, modKind, attributeOf, octets?, octet, valuesOf_octets, Delta.modFor, bind, Except.bind,
      pure, Except.pure]

theorem mapM_changes (ms : List Change) : mapM' modOf (ms.map fun m => changeObj m.wire) = .ok (ms.map Delta.modFor) := by
  induction ms with
  | nil => rfl
  | cons m ms ih => simp [mapM', modOf_change, ih, bind, Except.bind, pure, Except.pure]

/-- The answer to a modify request whose changes can be made. -/
theorem served (env : Env) (luck : Luck) (st : State) (i : Int) (hi : 0 < i ∧ i < 2 ^ 31) (t : UInt8)
    (dn : Bytes) (text : Str) (d : Dn.Dn) (htext : Utf8.decode dn = .ok text) (hd : Dn.Dn.parse env.U text = .ok d)
    (j : Nat) (n : Node) (hj : lookup env.U st.heap 0 d = .ok j) (hn : st.heap[j]? = some n)
    (ms : List Change) (e' : Entry) (h1 : Delta.patchAll env.U (ms.map Delta.modFor) n.entry = (e', none)) :
    serve env luck st (.message (.int i) (.modifyRequest t (.bytes dn) (ms.map fun m => changeObj m.wire)) none) =
      some ⟨{ st with heap := st.heap.set j { n with entry := e' } }, [(.int i, (Op.result .modify 0 [] []).build)]⟩ := by
  have hi0 : PyVal.int i ≠ .int 0 := by intro h; cases h; omega
  have hread : readDn env.U (.bytes dn) = .ok d := by
    simp only [readDn, htext, bind, Except.bind]; exact hd
  have hhandle : handleModify env st.heap (.bytes dn) (ms.map fun m => changeObj m.wire) none =
      (st.heap.set j { n with entry := e' }, .ok (Op.result .modify 0 [] []).build) := by
    have ht : modifyTarget env st.heap (.bytes dn) (ms.map fun m => changeObj m.wire) none = .ok (j, ms.map Delta.modFor) := by
      simp only [modifyTarget, checkControls, mapM_changes, lift, hread, hj, bind, Except.bind, pure, Except.pure]
    simp only [handleModify, ht, hn, h1]
    rfl
  have henc : encodes (.int i) (Op.result .modify 0 [] []).build = true :=
    encodes_op i _ ⟨by omega, hi.2⟩ (size_result _ (by omega) [] (by simp) (by simp))
  simp only [serve, isRequest, if_true, if_neg hi0, call, hhandle, final, henc, List.map_nil, List.nil_append]

/-- **C76** The server does to an entry what RFC 4511 says, and says so. -/
theorem modify_answered (env : Env) (hU : Sane env.U) (luck : Luck) (st : State) (i : Int) (hi : 0 < i ∧ i < 2 ^ 31) (t : UInt8)
    (dn : Bytes) (text : Str) (d : Dn.Dn) (htext : Utf8.decode dn = .ok text) (hd : Dn.Dn.parse env.U text = .ok d)
    (j : Nat) (n : Node) (hj : lookup env.U st.heap 0 d = .ok j) (hn : st.heap[j]? = some n) (ho : rawOctets.Tidy n.entry.attrs)
    (ms : List Change) (hk : ∀ m ∈ ms, Utf8.AsciiBytes m.attr)
    (hdec : ∀ m ∈ ms, m.kind = .delete → ∀ b ∈ m.values, (PyStr.bytes b).Decodable) (hacc : AllAccepted ms (content n.entry.attrs)) :
    ∃ e', serve env luck st (.message (.int i) (.modifyRequest t (.bytes dn) (ms.map fun m => changeObj m.wire)) none) =
        some ⟨{ st with heap := st.heap.set j { n with entry := e' } }, [(.int i, (Op.result .modify 0 [] []).build)]⟩ ∧
      e'.dn = n.entry.dn ∧ rawOctets.Tidy e'.attrs ∧ Same (content e'.attrs) (effects ms (content n.entry.attrs)) := by
  obtain ⟨e', h1, h2, h3, h4⟩ := Delta.patchAll_effects hU ms ho hk hdec hacc
  exact ⟨e', served env luck st i hi t dn text d htext hd j n hj hn ms e' h1, h3, h2, h4⟩

/-! ### The record of a connected entry -/

theorem toBytes_decodable {v : PyStr} (h : v.Decodable) : (PyStr.bytes v.toBytes).Decodable := by
  cases v with
  | bytes b => exact h
  | text s => exact ⟨s, rfl⟩

/-- A modification that can be sent, and carried out by the server of this library. -/
def Plain (m : Mod) : Prop := m.key.Ascii ∧ ∀ v ∈ m.values, v.Decodable

theorem edit_plain {U : Unicode} {V : Vocabulary} (hV : V.Fine) {s : Syntax.St} {e : Edit} (hd : V.Tidy s.attrs) (he : V.Speaks e) :
    ∀ m ∈ (edit U s e).1.journal, m ∈ s.journal ∨ Plain m := by
  have hrec : ∀ (s' : Syntax.St) (m : Mod), s'.journal = s.journal ++ [m] → Plain m → ∀ x ∈ s'.journal, x ∈ s.journal ∨ Plain x := by
    intro s' m h hm x hx
    rw [h] at hx
    rcases List.mem_append.mp hx with hx | hx
    · exact .inl hx
    · rw [List.mem_singleton.mp hx]; exact .inr hm
  cases e with
  | add k v =>
    simp only [edit]
    cases hp : Syntax.target U s k with
    | error x => exact fun m hm => .inl hm
    | ok p =>
      have hm := (Syntax.target_mem hp).1
      have hpl : Plain ⟨.add, p.1, [v]⟩ := ⟨(hd.names p hm).ascii, fun w hw => by
        rw [List.mem_singleton.mp hw]; exact hV.decodable _ _ he.2⟩
      simp only [addValue]
      split
      · exact hrec _ _ rfl hpl
      · exact hrec _ _ rfl hpl
  | update k vs =>
    simp only [edit]
    cases hp : Syntax.target U s k with
    | error x => exact fun m hm => .inl hm
    | ok p =>
      have hm := (Syntax.target_mem hp).1
      exact hrec _ ⟨.add, p.1, mkSet vs⟩ rfl ⟨(hd.names p hm).ascii, fun w hw => hV.decodable _ _ (he.2 w (Delta.mem_mkSet.mp hw))⟩
  | remove k v =>
    simp only [edit]
    cases hp : Syntax.target U s k with
    | error x => exact fun m hm => .inl hm
    | ok p =>
      have hm := (Syntax.target_mem hp).1
      simp only [removeValue]
      split
      · rename_i hv
        have hpl : Plain ⟨.delete, p.1, [v]⟩ := ⟨(hd.names p hm).ascii, fun w hw => by
          rw [List.mem_singleton.mp hw]; exact hV.decodable _ _ (hd.values p hm v hv)⟩
        split
        · exact fun m hm => .inl hm
        · split
          · exact hrec _ _ rfl hpl
          · exact hrec _ _ rfl hpl
      · exact fun m hm => .inl hm
  | clear k =>
    simp only [edit]
    cases hp : Syntax.target U s k with
    | error x => exact fun m hm => .inl hm
    | ok p =>
      have hm := (Syntax.target_mem hp).1
      simp only [clearValues]
      split
      · exact fun m hm => .inl hm
      · exact hrec _ ⟨.delete, p.1, []⟩ rfl ⟨(hd.names p hm).ascii, fun w hw => by cases hw⟩
  | set k vs =>
    simp only [edit, Syntax.setItem]
    split
    · exact fun m hm => .inl hm
    · exact hrec _ ⟨.replace, k, mkSet vs⟩ rfl ⟨he.1.ascii, fun w hw => hV.decodable _ _ (he.2 w (Delta.mem_mkSet.mp hw))⟩
  | del k =>
    simp only [edit, Syntax.delItem]
    split
    · exact fun m hm => .inl hm
    · split
      · exact fun m hm => .inl hm
      · exact hrec _ ⟨.delete, k, []⟩ rfl ⟨he, fun w hw => by cases hw⟩

theorem edits_plain {U : Unicode} {V : Vocabulary} (hU : Sane U) (hV : V.Fine) (es : List Edit) {s : Syntax.St} (hd : V.Tidy s.attrs)
    (he : ∀ e ∈ es, V.Speaks e) (h : ∀ m ∈ s.journal, Plain m) :
    (∀ m ∈ (edits U s es).journal, Plain m) ∧ (edits U s es).dn = s.dn ∧ (edits U s es).deleted = s.deleted := by
  induction es generalizing s with
  | nil => exact ⟨h, rfl, rfl⟩
  | cons e es ih =>
    have he1 := he e List.mem_cons_self
    have hx : V.Tidy (edit U s e).1.attrs ∧ (edit U s e).1.dn = s.dn ∧ (edit U s e).1.deleted = s.deleted := by
      rcases Syntax.edit_edited hU hV hd he1 with ⟨h', _⟩ | ⟨m, _, hm⟩
      · rw [h']; exact ⟨hd, rfl, rfl⟩
      · exact ⟨hm.tidy, hm.dn, hm.alive⟩
    obtain ⟨h1, h2, h3⟩ := ih hx.1 (fun x hx => he x (List.mem_cons_of_mem _ hx)) (fun m hm => (edit_plain hV hd he1 m hm).elim (h m) id)
    exact ⟨h1, h2.trans hx.2.1, h3.trans hx.2.2⟩

/-! ### Contents that agree on some attributes -/

/-- The same values for some attributes. -/
def Agree (K : Bytes → Prop) (c d : Content) : Prop := ∀ n b, K n → (c n b ↔ d n b)

theorem effect_agree {K : Bytes → Prop} {c d : Content} (h : Agree K c d) (m : Change) : Agree K (m.effect c) (m.effect d) := by
  intro n b hk
  unfold Change.effect
  split
  · cases m.kind <;> simp [h n b hk]
  · exact h n b hk

theorem effects_agree {K : Bytes → Prop} {c d : Content} (h : Agree K c d) (ms : List Change) : Agree K (effects ms c) (effects ms d) := by
  induction ms generalizing c d with
  | nil => exact h
  | cons m ms ih => exact ih (effect_agree h m)

theorem allAccepted_agree {K : Bytes → Prop} {c d : Content} (h : Agree K c d) (ms : List Change) (hk : ∀ m ∈ ms, K (fold m.attr)) :
    AllAccepted ms c ↔ AllAccepted ms d := by
  induction ms generalizing c d with
  | nil => exact Iff.rfl
  | cons m ms ih =>
    refine and_congr ?_ (ih (effect_agree h m) fun x hx => hk x (List.mem_cons_of_mem _ hx))
    have := fun b => h (fold m.attr) b (hk m List.mem_cons_self)
    unfold Change.Accepted
    cases m.kind <;> simp [this]

theorem effects_outside {K : Bytes → Prop} (ms : List Change) (hk : ∀ m ∈ ms, K (fold m.attr)) (c : Content) {n : Bytes} (hn : ¬ K n) (b : Bytes) :
    effects ms c n b ↔ c n b := by
  induction ms generalizing c with
  | nil => exact Iff.rfl
  | cons m ms ih =>
    have h1 : effects (m :: ms) c = effects ms (m.effect c) := rfl
    rw [h1, ih fun x hx => hk x (List.mem_cons_of_mem _ hx)]
    unfold Change.effect
    rw [if_neg fun h : n = fold m.attr => hn (h ▸ hk m List.mem_cons_self)]

/-! ### From the program to the server and back -/

theorem commitRequest_eq (dn : Dn.Dn) (ms : List Mod) :
    commitRequest dn ms = (Op.modify (Utf8.encode dn.text) (ms.map fun m => (change m).wire)).build := by
  have h : ∀ m : Mod, asLDAP m = changeObj (change m).wire := by
    intro m
    have : ldapOp m.kind = code m.kind := by cases m.kind <;> rfl
    simp only [asLDAP, changeObj, seqObj, setObj, Change.wire, change, this, octet, List.map_map]
    rfl
  simp only [commitRequest, Op.build, List.map_map, Obj.modifyRequest.injEq, true_and]
  exact List.map_congr_left fun m _ => h m

/-- **C76** -/
theorem commit (env : Env) (hU : Sane env.U) (V : Vocabulary) (hV : V.Fine) (hP : V.Plain) (luck : Luck) (st : State)
    (app : Client.App) (fuel c : Nat) (w : Client.World) (hconn : (w.conns c).connected = true) (hid : 0 < w.nextId ∧ w.nextId < 2 ^ 31)
    (hfree : (w.conns c).onwire.lookup w.nextId = none)
    (s : Syntax.St) (hjn : s.journal = []) (hr : s.remote = s.attrs) (hd : V.Tidy s.attrs) (ha : s.deleted = false) (hdn : Textual s.dn)
    (j : Nat) (n : Node) (hj : lookup env.U st.heap 0 s.dn = .ok j) (hn : st.heap[j]? = some n) (ho : rawOctets.Tidy n.entry.attrs)
    (K : Bytes → Prop) (hsame : Agree K (content n.entry.attrs) (content s.attrs))
    (es : List Edit) (he : ∀ e ∈ es, V.Speaks e) (hs : AllSensible env.U s es) (hne : (edits env.U s es).journal ≠ [])
    (hK : ∀ m ∈ (edits env.U s es).journal, K (fold m.key.toBytes))
    (hsize : (Msg.mk w.nextId (.modify (Utf8.encode s.dn.text) ((edits env.U s es).journal.map fun m => (change m).wire)) none).size < lengthLimit) :
    ∃ ms e' s' answer, Syntax.commit (edits env.U s es) = .ok (some ms) ∧
      Exchanged env luck app fuel c w (.send c (commitRequest (edits env.U s es).dn ms) none) st
        { st with heap := st.heap.set j { n with entry := e' } } (.response answer) ∧
      committed env (edits env.U s es) answer = (s', none) ∧ s'.journal = [] ∧ s'.attrs = (edits env.U s es).attrs ∧
      Same (content s'.remote) (content s'.attrs) ∧
      e'.dn = n.entry.dn ∧ rawOctets.Tidy e'.attrs ∧ Agree K (content e'.attrs) (content s'.attrs) ∧
      Agree (fun a => ¬ K a) (content e'.attrs) (content n.entry.attrs) ∧
      (C67.Built env st.heap → C67.Built env (st.heap.set j { n with entry := e' })) := by
  obtain ⟨hpl, hdn', halive⟩ := edits_plain hU hV es hd he (by rw [hjn]; intro m hm; cases hm)
  have hstep : InStep s := by unfold InStep; rw [hjn, hr]; exact fun _ _ => Iff.rfl
  obtain ⟨htidy, hin, hrem⟩ := edits_inStep hU hV es hd hstep he
  have hacc := accepted hU hV s hjn hr hd es he hs
  have hKc : ∀ m ∈ (edits env.U s es).journal.map change, K (fold m.attr) := by
    intro m hm
    obtain ⟨x, hx, rfl⟩ := List.mem_map.mp hm
    exact hK x hx
  obtain ⟨e', h1, h2, h3, h4⟩ := modify_answered env hU luck st w.nextId hid 0x46 (Utf8.encode s.dn.text) s.dn.text s.dn (Utf8.decode_encode _)
    (C75.parse_text hdn) j n hj hn ho ((edits env.U s es).journal.map change) (by
      intro m hm
      obtain ⟨x, hx, rfl⟩ := List.mem_map.mp hm
      exact (hpl x hx).1) (by
      intro m hm _ b hb
      obtain ⟨x, hx, rfl⟩ := List.mem_map.mp hm
      obtain ⟨v, hv, rfl⟩ := List.mem_map.mp hb
      exact toBytes_decodable ((hpl x hx).2 v hv)) ((allAccepted_agree hsame _ hKc).mpr hacc)
  have hcommit : Syntax.commit (edits env.U s es) = .ok (some (edits env.U s es).journal) := by
    simp [Syntax.commit, halive, ha, hne]
  obtain ⟨d, hdone, hcopy⟩ := C50.done_eq (env := env) hU hP (edits env.U s es) htidy (by rw [halive]; exact ha) 0x47 (.bytes []) .none
  have hex := exchange env luck st app fuel c w hconn (by omega) hfree
    (.send c (commitRequest (edits env.U s es).dn (edits env.U s es).journal) none) .plain (fun h => by cases h)
    (.modify (Utf8.encode s.dn.text) ((edits env.U s es).journal.map fun m => (change m).wire)) (.result .modify 0 [] []) trivial (by
      rw [hdn', commitRequest_eq]; simp only [Client.call]) rfl hsize _ (by
      rw [List.map_map] at h1
      show serve env luck st (.message _ (.modifyRequest 0x46 _ (List.map changeObj (List.map _ _))) none) = _
      rw [List.map_map]
      exact h1) rfl trivial rfl
      (encodes_op w.nextId _ ⟨by omega, hid.2⟩ (size_result _ (by omega) [] (by simp) (by simp)))
  refine ⟨_, e', _, _, hcommit, hex, hdone, rfl, rfl, hcopy.content, h2, h3, fun a b hk => ?_, fun a b hk => ?_,
    fun hb => .step hb (fun h => by cases h) h1⟩
  · rw [h4 a b, effects_agree hsame _ a b hk, ← hr, ← hrem]
    exact hin a b
  · rw [h4 a b]
    exact effects_outside _ hKc _ hk b

/-! ### Example: a program that knows some of the attributes of the entry `cn=b,dc=a` of C67 -/

theorem child_octets : rawOctets.Tidy C67.child.attrs := by
  refine ⟨⟨?_, ?_⟩, ?_, ?_⟩
  · intro p hp
    rcases List.mem_cons.mp hp with rfl | hp
    · exact ⟨by decide +kernel, rfl⟩
    · rw [List.mem_singleton.mp hp]; exact ⟨by decide +kernel, rfl⟩
  · decide +kernel
  · show ∀ p ∈ C67.child.attrs, ∀ v ∈ p.2, v.isText = false
    decide +kernel
  · decide +kernel

/-- Some changes: a new value, one value less, all values of an attribute replaced, an attribute removed. -/
def changes : List Change :=
  [⟨.add, ascii "CN", [ascii "z"]⟩, ⟨.delete, ascii "cn", [ascii "x"]⟩, ⟨.replace, ascii "mail", [ascii "m"]⟩, ⟨.delete, ascii "sn", []⟩]

theorem changes_accepted : AllAccepted changes (content C67.child.attrs) := by
  refine ⟨⟨by decide, by decide +kernel, ?_⟩, ⟨⟨ascii "x", ?_⟩, by decide +kernel, ?_⟩, ?_, ⟨⟨ascii "y", ?_⟩, by decide +kernel, ?_⟩, trivial⟩
  · decide +kernel
  · left; show content _ _ _; decide +kernel
  · intro b hb
    rw [List.mem_singleton.mp hb]
    left; show content _ _ _; decide +kernel
  · show List.Nodup _; decide +kernel
  · show content _ _ _; decide +kernel
  · intro b hb; cases hb

example := modify_answered C40.env asciiTables_sane C40.luck ⟨C67.heap, none⟩ 1 (by decide) 0x46 (ascii "CN=b,dc=a") "CN=b,dc=a".toList _
  (by decide +kernel) (show Dn.Dn.parse asciiTables _ = .ok [[⟨['C','N'], ['b']⟩], [⟨['d','c'], ['a']⟩]] by decide +kernel) 1 ⟨C67.child, some 0, []⟩
  (by decide +kernel) rfl child_octets changes (by decide +kernel)
  (by intro m hm _ b hb; exact PyStr.ascii_decodable (by revert m b; decide +kernel)) changes_accepted

/-- What the program has found: it asked for `cn` and `mail`. -/
def known : Syntax.St :=
  let d := [(bytes "cn", [bytes "b", bytes "x"])]
  ⟨C67.child.dn, d, d, [], false, true⟩

def program : List Edit := [.add (.text "cn".toList) (bytes "z"), .remove (bytes "CN") (bytes "x"), .set (bytes "mail") [bytes "m"]]

theorem known_tidy : allOctets.Tidy known.attrs := by
  refine ⟨⟨?_, ?_⟩, ?_, ?_⟩
  · intro p hp
    rw [List.mem_singleton.mp hp]; exact ⟨by decide +kernel, rfl⟩
  · decide +kernel
  · intro p hp v hv
    refine ⟨?_, PyStr.ascii_decodable ?_⟩ <;> revert p v <;> decide +kernel
  · decide +kernel

theorem program_speaks : ∀ e ∈ program, allOctets.Speaks e := by
  have hv : ∀ s : String, (bytes s).Ascii → (bytes s).isText = false ∧ (bytes s).Decodable := fun s h => ⟨rfl, PyStr.ascii_decodable h⟩
  intro e he
  simp only [program, List.mem_cons, List.not_mem_nil, or_false] at he
  rcases he with rfl | rfl | rfl
  · exact ⟨by decide +kernel, hv _ (by decide +kernel)⟩
  · trivial
  · refine ⟨⟨by decide +kernel, rfl⟩, fun v h => ?_⟩
    rw [List.mem_singleton.mp h]; exact hv _ (by decide +kernel)

example := commit C40.env asciiTables_sane allOctets allOctets_fine C50.allOctets_plain C40.luck ⟨C67.heap, none⟩ (fun _ => ⟨[], false, false⟩) 0 0
  (Client.run (fun _ => ⟨[], false, false⟩) 0 [.made 0]) rfl (by decide +kernel) (by decide +kernel) known rfl rfl known_tidy rfl
  (C75.writable 1 ⟨C67.child, some 0, []⟩ rfl) 1 ⟨C67.child, some 0, []⟩ (by decide +kernel) rfl child_octets (fun a => a ≠ ascii "sn")
  (by
    intro a b ha
    have h1 : content C67.child.attrs a b ↔ content known.attrs a b ∨ (ascii "sn" = a ∧ ascii "y" = b) := by
      simp only [content, C67.child, known, List.mem_cons, List.not_mem_nil, or_false, exists_eq_or_imp, exists_eq_left]
      rfl
    rw [h1]
    exact ⟨fun h => h.elim id fun h => absurd h.1.symm ha, .inl⟩)
  program program_speaks (by
    refine ⟨?_, trivial, trivial, trivial⟩
    show ¬ content _ _ _
    decide +kernel) (by decide +kernel) (by decide +kernel) (Nat.lt_trans (by decide +kernel) two64_lt_limit)

/-! ### Where the server does something else -/

/-- The directory of C67 after its entry `cn=b,dc=a` has become this. -/
def heapWith (e : Entry) : Heap := C67.heap.set 1 ⟨e, some 0, []⟩

/-- The server makes the changes of a request for the entry `cn=b,dc=a` of the directory of C67, and says so. -/
def Done (ms : List Change) (e' : Entry) : Prop :=
  serve C40.env C40.luck ⟨C67.heap, none⟩ (.message (.int 1) (.modifyRequest 0x46 (.bytes (ascii "cn=b,dc=a")) (ms.map fun m => changeObj m.wire)) none) =
    some ⟨⟨heapWith e', none⟩, [(.int 1, (Op.result .modify 0 [] []).build)]⟩

theorem done (ms : List Change) (e' : Entry) (h : Delta.patchAll asciiTables (ms.map Delta.modFor) C67.child = (e', none)) : Done ms e' :=
  served C40.env C40.luck ⟨C67.heap, none⟩ 1 (by decide) 0x46 (ascii "cn=b,dc=a") "cn=b,dc=a".toList C67.child.dn
    (by decide +kernel) (show Dn.Dn.parse asciiTables _ = .ok _ by decide +kernel) 1 ⟨C67.child, some 0, []⟩ (by decide +kernel) rfl ms e' h

/-- **RFC 4511, 4.6 fails**: a value that is there cannot be added once more (attributeOrValueExists); this server says it has
done so. -/
theorem exists_accepted : ∃ ms, ¬ AllAccepted ms (content C67.child.attrs) ∧ Done ms C67.child := by
  refine ⟨[⟨.add, ascii "sn", [ascii "y"]⟩], fun h => h.1.2.2 _ List.mem_cons_self (by show content _ _ _; decide +kernel), done _ _ (by decide +kernel)⟩

/-- **RFC 4511, 4.6 fails**: a modify request cannot remove the values that make up the name of the entry (notAllowedOnRDN);
this server does it. -/
theorem rdn_removed : ∃ ms e', AllAccepted ms (content C67.child.attrs) ∧ Done ms e' ∧ e'.dn = [[⟨['c','n'], ['b']⟩], [⟨['d','c'], ['a']⟩]] ∧
    ¬ content e'.attrs (ascii "cn") (ascii "b") := by
  refine ⟨[⟨.delete, ascii "cn", [ascii "b"]⟩], ⟨C67.child.dn, [(.bytes (ascii "cn"), [.bytes (ascii "x")]), (.bytes (ascii "sn"), [.bytes (ascii "y")])]⟩,
    ⟨⟨⟨ascii "b", ?_⟩, by decide +kernel, ?_⟩, trivial⟩, done _ _ (by decide +kernel), rfl, by decide +kernel⟩
  · show content _ _ _; decide +kernel
  · intro b hb
    rw [List.mem_singleton.mp hb]
    show content _ _ _; decide +kernel

/-- **RFC 4511, 4.6 fails**: the last value of an attribute is deleted; a search for entries with this attribute still finds the
entry, with an attribute without values. -/
theorem left_empty : ∃ ms e', AllAccepted ms (content C67.child.attrs) ∧ Done ms e' ∧ (∀ b, ¬ content e'.attrs (ascii "sn") b) ∧
    C26.Matches asciiTables (heapWith e') (Filter.present (ascii "sn")).sem 1 := by
  refine ⟨[⟨.delete, ascii "sn", [ascii "y"]⟩], ⟨C67.child.dn, [(.bytes (ascii "cn"), [.bytes (ascii "b"), .bytes (ascii "x")]), (.bytes (ascii "sn"), [])]⟩,
    ⟨⟨⟨ascii "y", ?_⟩, by decide +kernel, ?_⟩, trivial⟩, done _ _ (by decide +kernel), ?_, ⟨_, rfl, by decide +kernel⟩⟩
  · show content _ _ _; decide +kernel
  · intro b hb
    rw [List.mem_singleton.mp hb]
    show content _ _ _; decide +kernel
  · rintro b ⟨p, hp, hn, v, hv, -⟩
    rcases List.mem_cons.mp hp with rfl | hp
    · revert hn; decide +kernel
    · rw [List.mem_singleton.mp hp] at hv; cases hv

/-- The code of a response. -/
def codeOf : Obj → Option PyVal
  | .result _ _ c _ _ _ => some c
  | _ => none

/-- **C76 fails** for values that are not UTF-8: such a value can be added, but it cannot be deleted: the answer is protocolError. -/
theorem not_deletable : ∃ b e', Done [⟨.add, ascii "photo", [b]⟩] e' ∧ Change.Accepted ⟨.delete, ascii "photo", [b]⟩ (content e'.attrs) ∧
    (serve C40.env C40.luck ⟨heapWith e', none⟩ (.message (.int 2) (.modifyRequest 0x46 (.bytes (ascii "cn=b,dc=a"))
      [changeObj (Change.mk .delete (ascii "photo") [b]).wire]) none)).map
        (fun s => (decide (s.state.heap = heapWith e'), s.sent.map fun x => codeOf x.2)) = some (true, [some (.int 2)]) := by
  refine ⟨[0xff, 0xd8], ⟨C67.child.dn, C67.child.attrs ++ [(.bytes (ascii "photo"), [.bytes [0xff, 0xd8]])]⟩, done _ _ (by decide +kernel),
    ⟨⟨[0xff, 0xd8], ?_⟩, by decide +kernel, ?_⟩, by decide +kernel⟩
  · show content _ _ _; decide +kernel
  · intro b hb
    rw [List.mem_singleton.mp hb]
    show content _ _ _; decide +kernel

end Verif.C76
