import Verif.Spec.SambaPassword
import Verif.Lemmas.ExchangeUnique
import Verif.Props.C51
import Verif.Props.C76
import Verif.Props.C89
import Verif.Props.C93
/-
C101  Changing a password everywhere: the extended operation, then the hashes for Samba.

`changed_partial`, `blank_changed_partial`: an entry of a class of Samba gets the new password and the two hashes of it, and success is
reported.  `not_samba`: other entries get the new password.  `refused`: if the server refuses, nothing is changed, and the report says so.
`half_octets`, `half_dirty`, `endless`: where the password is changed and the hashes are not.  `cut`, `same_hash`: what the hash is made of.
-/
namespace Verif.C101
open Verif.Ldap Verif.Spec Verif.Spec.Modify Verif.Server Verif.SambaPassword Verif.Session Verif.SetPassword

/-! ### The object classes -/

theorem lower_upper (b : UInt8) : PyStr.lowerByte (Ldif.upperByte b) = PyStr.lowerByte b := by
  have h : ∀ n < 256, PyStr.lowerByte (Ldif.upperByte (UInt8.ofNat n)) = PyStr.lowerByte (UInt8.ofNat n) := by decide +kernel
  have := h b.toNat (by have := b.toNat_lt; omega)
  rwa [UInt8.ofNat_toNat] at this

theorem upper_lower (b : UInt8) : Ldif.upperByte (PyStr.lowerByte b) = Ldif.upperByte b := by
  have h : ∀ n < 256, Ldif.upperByte (PyStr.lowerByte (UInt8.ofNat n)) = Ldif.upperByte (UInt8.ofNat n) := by decide +kernel
  have := h b.toNat (by have := b.toNat_lt; omega)
  rwa [UInt8.ofNat_toNat] at this

theorem upper_eq_iff (b c : Bytes) : b.map Ldif.upperByte = c.map Ldif.upperByte ↔ fold b = fold c := by
  constructor
  · intro h
    have := congrArg (List.map PyStr.lowerByte) h
    simpa [Function.comp_def, lower_upper, fold, PyStr.lowerBytes] using this
  · intro h
    have := congrArg (List.map Ldif.upperByte) h
    simpa [Function.comp_def, upper_lower, fold, PyStr.lowerBytes] using this

theorem upper_mem {X : Outside} {vs : List PyStr} (ho : ∀ v ∈ vs, v.isText = false) (up cls : String) (h : (ascii cls).map Ldif.upperByte = ascii up) :
    ascii up ∈ vs.map (upperOctets X) ↔ ∃ v ∈ vs, fold v.toBytes = fold (ascii cls) := by
  rw [← h, List.mem_map]
  constructor
  · rintro ⟨v, hv, e⟩
    refine ⟨v, hv, ?_⟩
    cases v with
    | text s => exact absurd (ho _ hv) (by simp [PyStr.isText])
    | bytes b => exact (upper_eq_iff _ _).mp e
  · rintro ⟨v, hv, e⟩
    refine ⟨v, hv, ?_⟩
    cases v with
    | text s => exact absurd (ho _ hv) (by simp [PyStr.isText])
    | bytes b => exact (upper_eq_iff _ _).mpr e

theorem up_old : (ascii "sambaAccount").map Ldif.upperByte = ascii "SAMBAACCOUNT" := by decide +kernel
theorem up_new : (ascii "sambaSamAccount").map Ldif.upperByte = ascii "SAMBASAMACCOUNT" := by decide +kernel
theorem key_class : C93.Key "objectClass" := ⟨by decide +kernel, by unfold PyStr.Ascii; decide +kernel⟩

/-- The names of the attributes are told apart, and the object classes are octets, as a search gives them. -/
structure Clear (V : Vocabulary) (s : Syntax.St) : Prop where
  named : V.Named s.attrs
  classes : ∀ v, Has s.attrs (fold (ascii "objectClass")) v → v.isText = false
  there : s.deleted = false

/-- The entry of the client is known to be complete, or its object classes are known. -/
def Known (s : Syntax.St) : Prop := s.complete = true ∨ ∃ v, Has s.attrs (fold (ascii "objectClass")) v

theorem plan_classes {U : Unicode} (hU : Sane U) (X : Outside) {V : Vocabulary} {s : Syntax.St} (hc : Clear V s) (hk : Known s) :
    ∃ vs, (∀ v, v ∈ vs ↔ Has s.attrs (fold (ascii "objectClass")) v) ∧ plan U X s = .ok (classPlan X vs) := by
  rcases C93.target_cases hU hc.named hc.there key_class with ⟨p, hp, ht, hv⟩ | ⟨ht, hv⟩
  · exact ⟨p.2, fun v => (hv v).symm, by simp only [plan, ht]⟩
  · refine ⟨[], fun v => ⟨nofun, fun h => absurd h (hv v)⟩, ?_⟩
    rcases hk with h | ⟨v, h⟩
    · simp only [plan, ht, h, if_true]
    · exact absurd h (hv v)

theorem ofClass_iff {s : Syntax.St} {vs : List PyStr} (hv : ∀ v, v ∈ vs ↔ Has s.attrs (fold (ascii "objectClass")) v) (cls : String) :
    (∃ v ∈ vs, fold v.toBytes = fold (ascii cls)) ↔ OfClass s.attrs cls := by
  simp only [hv, OfClass]

/-- Which attributes are set. -/
theorem plan_set {U : Unicode} (hU : Sane U) (X : Outside) {V : Vocabulary} {s : Syntax.St} (hc : Clear V s) {nt lm : String}
    (h : SambaNames s.attrs nt lm) : ∃ style : Style, plan U X s = .ok (.set style) ∧ style.ntKey = nt ∧ style.lmKey = lm := by
  have hk : Known s := by
    cases h with
    | old h => exact .inr ⟨_, h.choose_spec.1⟩
    | new _ h => exact .inr ⟨_, h.choose_spec.1⟩
  obtain ⟨vs, hv, hp⟩ := plan_classes hU X hc hk
  have ho : ∀ v ∈ vs, v.isText = false := fun v h => hc.classes v ((hv v).mp h)
  cases h with
  | old h =>
    refine ⟨.sambaAccount, ?_, rfl, rfl⟩
    rw [hp, classPlan, if_pos ((upper_mem ho _ _ up_old).mpr ((ofClass_iff hv _).mpr h))]
  | new h1 h2 =>
    refine ⟨.sambaSamAccount, ?_, rfl, rfl⟩
    rw [hp, classPlan, if_neg (fun h => h1 ((ofClass_iff hv _).mp ((upper_mem ho _ _ up_old).mp h))),
      if_pos ((upper_mem ho _ _ up_new).mpr ((ofClass_iff hv _).mpr h2))]

theorem plan_nothing {U : Unicode} (hU : Sane U) (X : Outside) {V : Vocabulary} {s : Syntax.St} (hc : Clear V s) (hk : Known s)
    (h1 : ¬ OfClass s.attrs "sambaAccount") (h2 : ¬ OfClass s.attrs "sambaSamAccount") : plan U X s = .ok .nothing := by
  obtain ⟨vs, hv, hp⟩ := plan_classes hU X hc hk
  have ho : ∀ v ∈ vs, v.isText = false := fun v h => hc.classes v ((hv v).mp h)
  rw [hp, classPlan, if_neg (fun h => h1 ((ofClass_iff hv _).mp ((upper_mem ho _ _ up_old).mp h))),
    if_neg (fun h => h2 ((ofClass_iff hv _).mp ((upper_mem ho _ _ up_new).mp h)))]

/-! ### Setting the hashes -/

/-- The octets and the text of the name of an attribute for the hashes. -/
theorem key_octets (style : Style) : (PyStr.text style.ntKey.toList).toBytes = ascii style.ntKey ∧
    (PyStr.text style.lmKey.toList).toBytes = ascii style.lmKey := by
  cases style <;> decide +kernel

theorem mkSet_one (v : PyStr) : mkSet [v] = [v] := by simp [mkSet]

theorem setItem_ok (U : Unicode) (s : Syntax.St) (k v : PyStr) (h : Syntax.canRemoveAll s k = none) :
    Syntax.setItem U s k [v] = ({ s with attrs := s.attrs.set U k [v], journal := s.journal ++ [⟨.replace, k, [v]⟩] }, none) := by
  simp only [Syntax.setItem, h, mkSet_one, Syntax.St.record]

/-- The name of the entry does not use the attribute. -/
def Unnamed (d : Dn.Dn) (key : String) : Prop := ∃ r rest, d = r :: rest ∧ ∀ a ∈ r, a.attributeType ≠ key.toList

theorem canRemoveAll_ok {s : Syntax.St} (hs : s.deleted = false) {key : String} (h : Unnamed s.dn key) :
    Syntax.canRemoveAll s (.text key.toList) = none := by
  obtain ⟨r, rest, e, h⟩ := h
  simp only [Syntax.canRemoveAll, hs, e]
  simp only [Bool.false_eq_true, if_false]
  rw [if_neg]
  simp only [List.any_eq_true, decide_eq_true_eq, PyStr.text.injEq, not_exists, not_and]
  exact h

/-- The entry of the client with the hashes. -/
def withHashes (U : Unicode) (s : Syntax.St) (style : Style) (nt lm : Bytes) : Syntax.St :=
  { s with
    attrs := (s.attrs.set U (.text style.ntKey.toList) [.bytes nt]).set U (.text style.lmKey.toList) [.bytes lm]
    journal := s.journal ++ [⟨.replace, .text style.ntKey.toList, [.bytes nt]⟩, ⟨.replace, .text style.lmKey.toList, [.bytes lm]⟩] }

theorem setHashes_ok (U : Unicode) {X : Outside} {s : Syntax.St} (hs : s.deleted = false) {pw : PyStr} {style : Style} {nt lm : Bytes}
    (hnt : nthash X pw = .ok nt) (hlm : lmhash X pw = .ok lm) (h1 : Unnamed s.dn style.ntKey) (h2 : Unnamed s.dn style.lmKey) :
    setHashes U X s pw style = (withHashes U s style nt lm, none) := by
  simp only [setHashes, hs, hnt, hlm, setItem_ok U s _ _ (canRemoveAll_ok hs h1)]
  rw [setItem_ok]
  · simp [withHashes, hs]
  · exact canRemoveAll_ok (by rfl) h2

theorem mem_set {U : Unicode} {d : Verif.Attrs} {k : PyStr} {vs : List PyStr} {q : PyStr × List PyStr} (h : q ∈ d.set U k vs) :
    q = (k, vs) ∨ q ∈ d := by
  induction d with
  | nil => exact .inl (List.mem_singleton.mp h)
  | cons p d ih =>
    simp only [Verif.Attrs.set] at h
    split at h
    · rcases List.mem_cons.mp h with h | h
      · exact .inl h
      · exact .inr (List.mem_cons_of_mem _ h)
    · rcases List.mem_cons.mp h with h | h
      · exact .inr (h ▸ List.mem_cons_self)
      · exact (ih h).elim .inl fun h => .inr (List.mem_cons_of_mem _ h)

theorem items_ok (env : Env) (e : Entry) (h : ∀ p ∈ e.attrs, OneKind p.2) : ∃ l, items env e = .ok l := by
  have hperm := sortItems_perm e.attrs
  have hr := otherItems_eq (U := env.U) (sortItems e.attrs) (fun k vs hm _ => h (k, vs) (hperm.mem_iff.mp hm))
  simp only [items, hr, bind, Except.bind, pure, Except.pure]
  exact ⟨_, rfl⟩

/-- The entry of the server with the hashes. -/
def hashed (U : Unicode) (e : Entry) (style : Style) (nt lm : Bytes) : Entry :=
  { e with attrs := (e.attrs.set U (.bytes (ascii style.ntKey)) [.bytes nt]).set U (.bytes (ascii style.lmKey)) [.bytes lm] }

theorem size_bound {a b c d e y L : Nat} (ha : a < 2 ^ 32) (hb : b < 2 ^ 32) (hc : c < 2 ^ 32) (hd : d < 20) (he : e < 20) (hy : y < 2 ^ 31) (h : 2 ^ 64 < L) :
    y + a + b + c + d + e + 10000 < L := by omega

variable {env : Env} {luck : Luck} {app : Client.App} {f c : Nat} {world : Obj → State → Client.World} {net : Net}

/-- The hashes are set on the server. -/
theorem setSamba_ok (hw : Works net env luck app f c world) {X : Outside} {s : Syntax.St} (hs : s.deleted = false) (hj : s.journal = [])
    (hkind : ∀ p ∈ s.attrs, OneKind p.2) (ht : Textual s.dn) (hfit : Fit (Utf8.encode s.dn.text)) {pw : PyStr} {style : Style} {nt lm : Bytes}
    (hnt : nthash X pw = .ok nt) (hlm : lmhash X pw = .ok lm) (hf1 : Fit nt) (hf2 : Fit lm)
    (h1 : Unnamed s.dn style.ntKey) (h2 : Unnamed s.dn style.lmKey)
    (st : State) (j : Nat) (n : Tree.Node) (hl : Tree.lookup env.U st.heap 0 s.dn = .ok j) (hn : st.heap[j]? = some n) :
    ∃ d, setSamba env X net pw style (s, st) =
      (({ withHashes env.U s style nt lm with remote := d, journal := [] },
        { st with heap := st.heap.set j { n with entry := hashed env.U n.entry style nt lm } }), .success) := by
  let s1 := withHashes env.U s style nt lm
  let ms : List Mod := [⟨.replace, .text style.ntKey.toList, [.bytes nt]⟩, ⟨.replace, .text style.lmKey.toList, [.bytes lm]⟩]
  have hjr : s1.journal = ms := by show s.journal ++ ms = ms; rw [hj]; rfl
  have hcommit : Syntax.commit s1 = .ok (some ms) := by
    have : s1.deleted = false := hs
    simp only [Syntax.commit, this, hjr]
    simp [ms]
  let r := commitRequest s1.dn ms
  let w := world r st
  let op : Op := .modify (Utf8.encode s.dn.text) (ms.map fun m => (Modify.change m).wire)
  have hop : r = op.build := C76.commitRequest_eq _ _
  have hid : 0 < w.nextId ∧ w.nextId < 2 ^ 31 := hw.id r st
  have hchg : ms.map Modify.change = [⟨.replace, ascii style.ntKey, [nt]⟩, ⟨.replace, ascii style.lmKey, [lm]⟩] := by
    have e1 : Modify.change ⟨.replace, .text style.ntKey.toList, [.bytes nt]⟩ = ⟨.replace, ascii style.ntKey, [nt]⟩ := by
      rw [← (key_octets style).1]; rfl
    have e2 : Modify.change ⟨.replace, .text style.lmKey.toList, [.bytes lm]⟩ = ⟨.replace, ascii style.lmKey, [lm]⟩ := by
      rw [← (key_octets style).2]; rfl
    show [_, _] = _
    rw [e1, e2]
  have hpatch : Delta.patchAll env.U ((ms.map Modify.change).map Delta.modFor) n.entry = (hashed env.U n.entry style nt lm, none) := by
    rw [hchg]
    simp only [List.map_cons, List.map_nil, Delta.modFor, Delta.patchAll, Delta.patch, mkSet_one, hashed, Entry.setItem]
    simp
  have hserve := C76.served env luck st w.nextId hid 0x46 (Utf8.encode s.dn.text) s.dn.text s.dn (Utf8.decode_encode _) (C75.parse_text ht) j n hl hn
    (ms.map Modify.change) _ hpatch
  have hsize : (Msg.mk w.nextId op none).size < lengthLimit := by
    have e : ms.map (fun m => (Modify.change m).wire) = (ms.map Modify.change).map Change.wire := by rw [List.map_map]; rfl
    have h64 : 2 ^ 64 < lengthLimit := two64_lt_limit
    have hl1 : (ascii style.ntKey).length < 20 := by cases style <;> decide +kernel
    have hl2 : (ascii style.lmKey).length < 20 := by cases style <;> decide +kernel
    have hy : w.nextId.natAbs < 2 ^ 31 := by omega
    unfold Fit at hfit hf1 hf2
    have hop : op = .modify (Utf8.encode s.dn.text) ([⟨.replace, ascii style.ntKey, [nt]⟩, ⟨.replace, ascii style.lmKey, [lm]⟩].map Change.wire) := by
      rw [← hchg, ← e]
    rw [hop]
    simp only [Msg.size, Op.size, controlsSize, List.map_cons, List.map_nil, Change.wire, sizeSum, octSize, intSize, elementSize, attrSize, code]
    refine Nat.lt_of_le_of_lt ?_ (size_bound hfit hf1 hf2 hl1 hl2 hy h64)
    generalize (Utf8.encode s.dn.text).length = a1
    generalize (ascii style.ntKey).length = a2
    generalize (ascii style.lmKey).length = a3
    generalize nt.length = a4
    generalize lm.length = a5
    generalize w.nextId.natAbs = a6
    simp
    omega
  have hex := exchange env luck st app f c w (hw.connected r st) (by omega) (hw.free r st) (.send c r none) .plain nofun op (.result .modify 0 [] []) trivial
    (by rw [hop]; simp only [Client.call]) rfl hsize _ (by
      show serve env luck st (.message _ (.modifyRequest 0x46 _ (List.map changeObj (List.map _ _))) none) = _
      rw [List.map_map] at hserve ⊢
      exact hserve) rfl trivial rfl
      (encodes_op w.nextId _ ⟨by omega, hid.2⟩ (size_result _ (by omega) [] (by simp) (by simp)))
  have hask := hw.ask r st _ _ hex
  obtain ⟨l, hitems⟩ := items_ok env ⟨s1.dn, s1.attrs⟩ (by
    intro p hp
    rcases mem_set hp with rfl | hp
    · exact .inr (by simp [PyStr.isText])
    · rcases mem_set hp with rfl | hp
      · exact .inr (by simp [PyStr.isText])
      · exact hkind p hp)
  have hdone : Syntax.committed env s1 (received (.result .modify 0 [] [])) =
      ({ s1 with remote := Tree.buildAttrs env.U l, journal := [] }, none) := by
    have : s1.deleted = false := hs
    show Syntax.committed env s1 (.result .modifyResponse _ (.int 0) (.bytes []) _ _) = _
    simp only [Syntax.committed, Syntax.noDn, this, hitems]
    simp
  refine ⟨Tree.buildAttrs env.U l, ?_⟩
  simp only [setSamba, setHashes_ok env.U hs hnt hlm h1 h2]
  have hcommit : Syntax.commit (withHashes env.U s style nt lm) = .ok (some ms) := hcommit
  simp only [hcommit]
  have hask : net.ask (commitRequest (withHashes env.U s style nt lm).dn ms) st = _ := hask
  rw [hask]
  have hdone : Syntax.committed env (withHashes env.U s style nt lm) (received (.result .modify 0 [] [])) = _ := hdone
  simp only [hdone, outcome]
  rfl

/-! ### The two steps -/

theorem sorted (X : Outside) (fuel : Nat) (pw : PyStr) : sort (steps env X net fuel pw) = steps env X net fuel pw := by
  simp [sort, steps, SetPassword.insert]

theorem lower_ne (U : Unicode) (k : String) (h : PyStr.lowerBytes (ascii k) ≠ PyStr.lowerBytes (ascii "userPassword")) :
    (PyStr.bytes (ascii k)).lower U ≠ Password.textKey.lower U ∧ (PyStr.bytes (ascii k)).lower U ≠ Password.bytesKey.lower U := by
  have e : Password.bytesKey = .bytes (ascii "userPassword") := by decide +kernel
  refine ⟨nofun, ?_⟩
  rw [e]
  intro hl
  exact h (PyStr.bytes.inj hl)

theorem apart (U : Unicode) (style : Style) :
    ((PyStr.bytes (ascii style.ntKey)).lower U ≠ Password.textKey.lower U ∧ (PyStr.bytes (ascii style.ntKey)).lower U ≠ Password.bytesKey.lower U) ∧
    ((PyStr.bytes (ascii style.lmKey)).lower U ≠ Password.textKey.lower U ∧ (PyStr.bytes (ascii style.lmKey)).lower U ≠ Password.bytesKey.lower U) ∧
    (PyStr.bytes (ascii style.lmKey)).lower U ≠ (PyStr.bytes (ascii style.ntKey)).lower U := by
  refine ⟨lower_ne U _ ?_, lower_ne U _ ?_, fun h => ?_⟩
  · cases style <;> decide +kernel
  · cases style <;> decide +kernel
  · have : PyStr.lowerBytes (ascii style.lmKey) = PyStr.lowerBytes (ascii style.ntKey) := PyStr.bytes.inj h
    revert this
    cases style <;> decide +kernel

theorem text_apart {U : Unicode} (hU : Sane U) (style : Style) :
    (PyStr.text style.lmKey.toList).lower U ≠ (PyStr.text style.ntKey.toList).lower U := by
  intro h
  have hA : (PyStr.text style.lmKey.toList).Ascii ∧ (PyStr.text style.ntKey.toList).Ascii := by
    unfold PyStr.Ascii
    cases style <;> decide +kernel
  have := ((PyStr.lower_eq_iff hU hA.1 hA.2).mp h).2
  rw [(key_octets style).1, (key_octets style).2] at this
  revert this
  cases style <;> decide +kernel

theorem tryBind_congr (U : Unicode) (sha1 : Bytes → Bytes) (order : Bool) {e e' : Entry} (q : PyStr)
    (h1 : e'.attrs.find U Password.textKey = e.attrs.find U Password.textKey) (h2 : e'.attrs.find U Password.bytesKey = e.attrs.find U Password.bytesKey) :
    Password.tryBind U sha1 order e' q = Password.tryBind U sha1 order e q := by
  have key : ∀ k, k = Password.textKey ∨ k = Password.bytesKey → e'.get U k = e.get U k := by
    rintro k (rfl | rfl)
    · rw [C19.get_text, C19.get_text, h1, h2]
    · simp only [Entry.get, C19.keys_strings.2, bind, Except.bind, pure, Except.pure, Entry.firstOf, h1, h2]
  unfold Password.tryBind Password.keys
  cases order <;> simp only [anyPy, key _ (.inl rfl), key _ (.inr rfl), if_true, Bool.false_eq_true, if_false]

/-- The bound user, and what is needed of the server and of the entry of the client. -/
structure Scene (env : Env) (luck : Luck) (st : State) (j : Nat) (n : Tree.Node) (s : Syntax.St) (pw : PyStr) : Prop where
  hash : ∀ b, (env.sha1 b).length = 20
  bound : st.bound = some j
  node : st.heap[j]? = some n
  texts : ∀ e, Fit (luck.text e)
  dns : ∀ n ∈ st.heap, Fit (Utf8.encode n.entry.dn.text)
  there : s.deleted = false
  dn : s.dn.text = n.entry.dn.text
  password : Fit pw.toBytes

/-- The entry has the new password: it, and up to collisions of the hash only it, lets the user in. -/
def HasPassword (env : Env) (e : Entry) (pw salt : Bytes) : Prop :=
  ∀ order q, Password.tryBind env.U env.sha1 order e (.bytes q) = .ok (decide (env.sha1 (q ++ salt) = env.sha1 (pw ++ salt)))

/-- The first step. -/
theorem first (hw : Works net env luck app f c world) {st : State} {j : Nat} {n : Tree.Node} {s : Syntax.St} {pw : PyStr}
    (h : Scene env luck st j n s pw) : ∃ e, extendedOperation net pw (s, st) = ((s, { st with heap := st.heap.set j { n with entry := e } }), .success) ∧
      e.dn = n.entry.dn ∧ HasPassword env e pw.toBytes luck.salt ∧
      ∀ k, k.lower env.U ≠ Password.textKey.lower env.U → k.lower env.U ≠ Password.bytesKey.lower env.U →
        e.attrs.find env.U k = n.entry.attrs.find env.U k := by
  have hreq : ∃ r, PasswordRequest.request s pw = .ok r := by
    obtain ⟨v, h1, -, -⟩ := C89.roundtrip (some (Utf8.encode s.dn.text)) none (some pw.toBytes)
      (by simpa [h.dn] using h.dns n (List.mem_of_getElem? h.node)) nofun (by simpa using h.password)
    exact ⟨_, by simp [PasswordRequest.request, h.there, h1]; rfl⟩
  obtain ⟨r, hr⟩ := hreq
  obtain ⟨r', st', m, h1, h2, h3⟩ := C89.decided env luck st (fun i hi => by rw [h.bound] at hi; cases hi; exact ⟨n, h.node⟩) h.texts h.dns app f c
    (world r st) (hw.connected r st) (hw.id r st) (hw.free r st) s h.there pw (by rw [h.dn]; exact h.dns n (List.mem_of_getElem? h.node)) h.password
  rw [hr] at h1; cases h1
  have hask := hw.ask r st _ _ h2
  rcases h3 with ⟨g, -⟩ | ⟨j', n', g1, g2, ⟨g, -⟩ | ⟨-, g3, e, g4, rfl⟩⟩
  · rw [h.bound] at g; cases g
  · rw [h.bound] at g1; cases g1
    rw [h.node] at g2; cases g2
    exact absurd h.dn g
  rw [h.bound] at g1; cases g1
  rw [h.node] at g2; cases g2
  obtain ⟨k1, k2⟩ := C19.others_unchanged _ _ _ _ _ _ _ g4
  refine ⟨e, ?_, k1, fun order q => (C43.new_password_works env h.hash n e pw.toBytes luck.salt q order g4).2, k2⟩
  simp only [extendedOperation, hr, hask, g3, outcome]

/-- What is needed to set the hashes. -/
structure Ready (env : Env) (X : Outside) (st : State) (j : Nat) (s : Syntax.St) (pw : PyStr) (nt lm : Bytes) : Prop where
  nothingElse : s.journal = []
  textual : Textual s.dn
  lookup : Tree.lookup env.U st.heap 0 s.dn = .ok j
  ntHash : nthash X pw = .ok nt
  lmHash : lmhash X pw = .ok lm
  ntFit : Fit nt
  lmFit : Fit lm

/-- What has become of the entry of the server. -/
structure Changed (env : Env) (old e : Entry) (pw salt : Bytes) (ntName lmName : String) (nt lm : Bytes) : Prop where
  dn : e.dn = old.dn
  password : HasPassword env e pw salt
  nt : e.attrs.find env.U (.bytes (ascii ntName)) = some [.bytes nt]
  lm : e.attrs.find env.U (.bytes (ascii lmName)) = some [.bytes lm]
  others : ∀ k, k.lower env.U ≠ Password.textKey.lower env.U → k.lower env.U ≠ Password.bytesKey.lower env.U →
    k.lower env.U ≠ (PyStr.bytes (ascii ntName)).lower env.U → k.lower env.U ≠ (PyStr.bytes (ascii lmName)).lower env.U →
    e.attrs.find env.U k = old.attrs.find env.U k

/-- Both steps; the classes may have been fetched before the second. -/
theorem both (hU : Sane env.U) (hw : Works net env luck app f c world) (X : Outside) {st : State} {j : Nat} {n : Tree.Node} {s s1 : Syntax.St} {pw : PyStr}
    (h : Scene env luck st j n s pw) {nt lm : Bytes} (hr : Ready env X st j s1 pw nt lm) (hsd : s1.dn = s.dn) {V : Vocabulary} (hc : Clear V s1)
    (hkind : ∀ p ∈ s1.attrs, OneKind p.2) {ntName lmName : String} (hnames : SambaNames s1.attrs ntName lmName)
    (hu1 : Unnamed s.dn ntName) (hu2 : Unnamed s.dn lmName) {fuel fuel' : Nat}
    (hrun : ∀ st', maybeSamba env X net pw fuel (s, st') = maybeSamba env X net pw fuel' (s1, st')) :
    ∃ s' st' e, change env X net fuel pw (s, st) = ((s', st'), .success) ∧ s'.dn = s.dn ∧ s'.journal = [] ∧
      s'.attrs.find env.U (.text ntName.toList) = some [.bytes nt] ∧ (∀ b, s'.attrs.find env.U (.bytes b) = s1.attrs.find env.U (.bytes b)) ∧
      st'.bound = st.bound ∧ st'.heap = st.heap.set j { n with entry := e } ∧ Changed env n.entry e pw.toBytes luck.salt ntName lmName nt lm := by
  obtain ⟨e1, a1, a2, a3, a4⟩ := first hw h
  obtain ⟨style, b1, b2, b3⟩ := plan_set hU X hc hnames
  subst b2; subst b3
  have hlt : j < st.heap.length := (List.getElem?_eq_some_iff.mp h.node).1
  have hfit : Fit (Utf8.encode s1.dn.text) := by rw [hsd, h.dn]; exact h.dns n (List.mem_of_getElem? h.node)
  obtain ⟨d, hset⟩ := setSamba_ok hw hc.there hr.nothingElse hkind hr.textual hfit hr.ntHash hr.lmHash hr.ntFit hr.lmFit (hsd ▸ hu1) (hsd ▸ hu2)
    { st with heap := st.heap.set j { n with entry := e1 } } j { n with entry := e1 }
    (by show Tree.lookup env.U (st.heap.set j { n with entry := e1 }) 0 s1.dn = _; rw [C89.lookup_set env.U h.node a2]; exact hr.lookup)
    (List.getElem?_set_self hlt)
  have hstep : ∀ st2, maybeSamba env X net pw fuel' (s1, st2) = some (setSamba env X net pw style (s1, st2)) := by
    intro st2
    unfold maybeSamba
    rw [b1]
  have hsucc : C51.Succeed (sort (steps env X net fuel pw)) (s, st)
      ({ withHashes env.U s1 style nt lm with remote := d, journal := [] },
        { st with heap := (st.heap.set j { n with entry := e1 }).set j { n with entry := hashed env.U e1 style nt lm } }) := by
    rw [sorted]
    refine .cons a1 (.cons ?_ (.nil _))
    show (maybeSamba env X net pw fuel (s, _)).getD _ = _
    rw [hrun, hstep, hset]
    rfl
  obtain ⟨⟨q1, q2⟩, ⟨q3, q4⟩, q5⟩ := apart env.U style
  refine ⟨_, _, hashed env.U e1 style nt lm, C51.all_succeed _ _ _ hsucc, hsd, rfl, ?_, fun b => ?_, rfl, by simp [List.set_set], a2, ?_, ?_, ?_, ?_⟩
  · show ((s1.attrs.set env.U _ _).set env.U _ _).find env.U _ = _
    rw [C19.find_set_other _ _ _ _ _ (text_apart hU style), C19.find_set_same]
  · show ((s1.attrs.set env.U _ _).set env.U _ _).find env.U _ = _
    have hne : ∀ k : Str, (PyStr.text k).lower env.U ≠ (PyStr.bytes b).lower env.U := fun _ h => by cases h
    rw [C19.find_set_other _ _ _ _ _ (hne _), C19.find_set_other _ _ _ _ _ (hne _)]
  · intro order q
    rw [← a3 order q]
    apply tryBind_congr
    · rw [hashed, C19.find_set_other _ _ _ _ _ q3, C19.find_set_other _ _ _ _ _ q1]
    · rw [hashed, C19.find_set_other _ _ _ _ _ q4, C19.find_set_other _ _ _ _ _ q2]
  · rw [hashed, C19.find_set_other _ _ _ _ _ q5, C19.find_set_same]
  · rw [hashed, C19.find_set_same]
  · intro k h1 h2 h3 h4
    rw [hashed, C19.find_set_other _ _ _ _ _ (Ne.symm h4), C19.find_set_other _ _ _ _ _ (Ne.symm h3)]
    exact a4 k h1 h2

/-- **C101** The user whose entry it is sets the password: the server is asked to change it, then, as the entry is of a class of Samba,
to replace the two hashes.  Success is reported; the entry of the server has the new password and exactly the hashes of it, under the
names of its class; nothing else has changed.  The entry of the client has the new hash under the name as text; what it has under names
that are octets is as before - so, for an entry that was found by a search, the old hash (see the example below).
Missing for the whole property: passwords that cannot be hashed, changes of the client that were not sent yet. -/
theorem changed_partial (hU : Sane env.U) (hw : Works net env luck app f c world) (X : Outside) {st : State} {j : Nat} {n : Tree.Node} {s : Syntax.St} {pw : PyStr}
    (h : Scene env luck st j n s pw) {nt lm : Bytes} (hr : Ready env X st j s pw nt lm) {V : Vocabulary} (hc : Clear V s)
    (hkind : ∀ p ∈ s.attrs, OneKind p.2) {ntName lmName : String} (hnames : SambaNames s.attrs ntName lmName)
    (hu1 : Unnamed s.dn ntName) (hu2 : Unnamed s.dn lmName) (fuel : Nat) :
    ∃ s' st' e, change env X net fuel pw (s, st) = ((s', st'), .success) ∧ s'.dn = s.dn ∧ s'.journal = [] ∧
      s'.attrs.find env.U (.text ntName.toList) = some [.bytes nt] ∧ (∀ b, s'.attrs.find env.U (.bytes b) = s.attrs.find env.U (.bytes b)) ∧
      st'.bound = st.bound ∧ st'.heap = st.heap.set j { n with entry := e } ∧ Changed env n.entry e pw.toBytes luck.salt ntName lmName nt lm :=
  both hU hw X h hr rfl hc hkind hnames hu1 hu2 (fun _ => rfl)

/-! ### An entry of which the client knows nothing but the DN -/

/-- `LDAPEntry(client, dn)` -/
def blank (U : Unicode) (dn : Dn.Dn) : Syntax.St := Syntax.init U dn [] false

def classKey : PyStr := .text "objectClass".toList

theorem class_lower {U : Unicode} (hU : Sane U) : classKey.lower U = .text "objectclass".toList := by
  have hA : Utf8.AsciiText "objectClass".toList := by decide +kernel
  have hl : "objectClass".toList.map Char.toLower = "objectclass".toList := by decide +kernel
  unfold classKey
  generalize "objectClass".toList = t at hA hl
  show PyStr.text (U.lower t) = _
  rw [hU.ascii t hA, hl]

theorem fetched_one {s : Syntax.St} (hj : s.journal = []) (o : Verif.Attrs) (k : PyStr) :
    Syntax.fetched env s [o] [k] = match Syntax.overwrite env.U ⟨s.dn, o⟩ [k] s.remote with
      | .error e => (s, some (.py e))
      | .ok d => Syntax.undo env { s with remote := d } := by
  simp only [Syntax.fetched, hj]
  simp
  split <;> simp_all

theorem target_absent {V : Vocabulary} {U : Unicode} (hU : Sane U) {s : Syntax.St} (hn : V.Named s.attrs) (hs : s.deleted = false) {key : String} (hk : C93.Key key)
    (h : ∀ p ∈ s.attrs, fold p.1.toBytes ≠ fold (ascii key)) : Syntax.target U s (.text key.toList) = .error (.py .keyError) := by
  cases ht : Syntax.target U s (.text key.toList) with
  | ok p =>
    obtain ⟨hp, _, y, hy, hl⟩ := Syntax.target_mem ht
    have hyA : y.Ascii := by unfold PyStr.Ascii; rw [hy]; exact hk.ascii
    have := Match.sameName_lower hU (hn.names p hp).ascii hyA hl
    unfold SameName at this
    rw [hy, hk.octets] at this
    exact absurd this (h p hp)
  | error x =>
    obtain ⟨l, hl⟩ := PyStr.getStrings_total.mp (PyStr.ascii_decodable hk.ascii)
    unfold Syntax.target at ht
    rw [hs, hl] at ht
    simp only [Bool.false_eq_true, if_false] at ht
    split at ht
    · cases ht; rfl
    · cases ht

theorem blank_plan {U : Unicode} (hU : Sane U) (X : Outside) (dn : Dn.Dn) : plan U X (blank U dn) = .ok .fetch := by
  have := target_absent (V := allOctets) hU (s := blank U dn) ⟨nofun, .nil⟩ rfl key_class nofun
  simp only [plan, this]
  rfl

/-- What is fetched. -/
theorem blank_fetched (hU : Sane env.U) (dn : Dn.Dn) (o : Verif.Attrs) {v : PyStr} {vs : List PyStr}
    (ho : (Entry.mk dn o).get env.U classKey = .ok (some (v :: vs))) :
    ∃ ws, (∀ w, w ∈ ws ↔ w ∈ v :: vs) ∧
      Syntax.fetched env (blank env.U dn) [o] [classKey] = ({ blank env.U dn with attrs := [(classKey, ws)], remote := [(classKey, mkSet (v :: vs))] }, none) := by
  have hset : mkSet (v :: vs) ≠ [] := by
    intro h
    have : v ∈ mkSet (v :: vs) := Delta.mem_mkSet.mpr List.mem_cons_self
    rw [h] at this; cases this
  obtain ⟨x, xs, hx⟩ := List.exists_cons_of_ne_nil hset
  have hcls : isClassKey env.U classKey = true := by unfold isClassKey; rw [class_lower hU]; simp
  have hitems : items env ⟨dn, [(classKey, x :: xs)]⟩ = .ok [(classKey, Delta.sortBytes (x :: xs))] := by
    have h1 : otherItems env.U (sortItems [(classKey, x :: xs)]) = .ok [] := by
      simp [sortItems, insertItem, otherItems, hcls]
    have h2 : Verif.Attrs.find env.U classKey [(classKey, x :: xs)] = some (x :: xs) := by simp [Verif.Attrs.find]
    have h3 : Verif.Attrs.find env.U (.bytes (ascii "objectClass")) [(classKey, x :: xs)] = none := by
      simp [Verif.Attrs.find, classKey, PyStr.lower]
    simp only [items, h1, bind, Except.bind, pure, Except.pure, classKeys]
    split
    · simp only [List.filterMap_cons, List.filterMap_nil, List.append_nil]
      rw [show PyStr.text "objectClass".toList = classKey from rfl, h2, h3]
    · simp only [List.filterMap_cons, List.filterMap_nil, List.append_nil]
      rw [show PyStr.text "objectClass".toList = classKey from rfl, h2, h3]
  refine ⟨mkSet (Delta.sortBytes (x :: xs)), fun w => ?_, ?_⟩
  · rw [Delta.mem_mkSet, (Delta.sortBytes_perm _).mem_iff, ← hx, Delta.mem_mkSet]
  · have hov : Syntax.overwrite env.U ⟨dn, o⟩ [classKey] [] = .ok [(classKey, x :: xs)] := by
      simp only [Syntax.overwrite, ho, hx]
      rfl
    rw [fetched_one rfl]
    have hov : Syntax.overwrite env.U ⟨(blank env.U dn).dn, o⟩ [classKey] (blank env.U dn).remote = _ := hov
    rw [hov]
    have hd : (blank env.U dn).deleted = false := rfl
    have hi : items env ⟨(blank env.U dn).dn, [(classKey, x :: xs)]⟩ = _ := hitems
    simp only [Syntax.undo, hd, hi, hx]
    simp only [Syntax.rebuild, List.foldl_cons, List.foldl_nil, Verif.Attrs.set]
    rfl

/-- **C101** The client knows nothing but the DN of the entry: it fetches the object classes first. -/
theorem blank_changed_partial (hU : Sane env.U) (hw : Works net env luck app f c world) (X : Outside) {st : State} {j : Nat} {n : Tree.Node} {dn : Dn.Dn} {pw : PyStr}
    (h : Scene env luck st j n (blank env.U dn) pw) {nt lm : Bytes} (hr : Ready env X st j (blank env.U dn) pw nt lm)
    (o : Verif.Attrs) (hfind : ∀ st', net.find dn st' = .ok [o]) (ho : allOctets.Tidy o) {ntName lmName : String} (hnames : SambaNames o ntName lmName)
    (hu1 : Unnamed dn ntName) (hu2 : Unnamed dn lmName) (fuel : Nat) :
    ∃ s' st' e, change env X net (fuel + 1) pw (blank env.U dn, st) = ((s', st'), .success) ∧ s'.dn = dn ∧ s'.journal = [] ∧
      st'.bound = st.bound ∧ st'.heap = st.heap.set j { n with entry := e } ∧ Changed env n.entry e pw.toBytes luck.salt ntName lmName nt lm := by
  have hkb : classKey.toBytes = ascii "objectClass" := key_class.octets
  obtain ⟨v, vs, hget, hv⟩ : ∃ v vs, (Entry.mk dn o).get env.U classKey = .ok (some (v :: vs)) ∧
      ∀ w, w ∈ v :: vs ↔ Has o (fold (ascii "objectClass")) w := by
    obtain ⟨p, hp, hpn, u, hu⟩ : ∃ p ∈ o, fold p.1.toBytes = fold (ascii "objectClass") ∧ ∃ u, u ∈ p.2 := by
      cases hnames with
      | old h => obtain ⟨u, ⟨p, hp, e, hu⟩, -⟩ := h; exact ⟨p, hp, e, u, hu⟩
      | new _ h => obtain ⟨u, ⟨p, hp, e, hu⟩, -⟩ := h; exact ⟨p, hp, e, u, hu⟩
    have hwn := Syntax.wellNamed ho.toNamed dn
    have hhas : HasAttr ⟨dn, o⟩ classKey p.2 := ⟨p.1, hp, by unfold SameName; rw [hkb]; exact hpn⟩
    have hg := Match.get_spec hU hwn (a := classKey) key_class.ascii
    obtain ⟨k, vs0⟩ := p
    cases vs0 with
    | nil => cases hu
    | cons v vs =>
      refine ⟨v, vs, by obtain ⟨r, h1, h2⟩ := hg; rw [h1, (h2 _).mpr hhas], fun w => ?_⟩
      constructor
      · intro hw; exact ⟨_, hp, hpn, hw⟩
      · rintro ⟨q, hq, e, hw⟩
        have := Syntax.Named.unique ho.toNamed hq hp (e.trans hpn.symm)
        rw [this] at hw
        exact hw
  obtain ⟨ws, hws, hf⟩ := blank_fetched hU dn o hget
  let s1 : Syntax.St := { blank env.U dn with attrs := [(classKey, ws)], remote := [(classKey, mkSet (v :: vs))] }
  have hhas : ∀ w, Has s1.attrs (fold (ascii "objectClass")) w ↔ Has o (fold (ascii "objectClass")) w := by
    intro w
    rw [← hv w, ← hws w]
    constructor
    · rintro ⟨p, hp, -, hw⟩
      rw [List.mem_singleton.mp hp] at hw
      exact hw
    · intro h; exact ⟨_, List.mem_singleton.mpr rfl, by rw [hkb], h⟩
  have hof : ∀ cls, OfClass s1.attrs cls ↔ OfClass o cls := fun cls => by simp only [OfClass, hhas]
  have hoct : ∀ w ∈ ws, w.isText = false := by
    intro w hw
    obtain ⟨p, hp, -, hw⟩ := (hv w).mp ((hws w).mp hw)
    exact (ho.values p hp w hw).1
  have hn1 : SambaNames s1.attrs ntName lmName := by
    cases hnames with
    | old h => exact .old ((hof _).mpr h)
    | new h1 h2 => exact .new (fun h => h1 ((hof _).mp h)) ((hof _).mpr h2)
  have hc : Clear ⟨fun _ => true, fun _ _ => True⟩ s1 := by
    refine ⟨⟨?_, by simp [s1]⟩, ?_, rfl⟩
    · intro p hp
      rw [List.mem_singleton.mp hp]
      exact ⟨key_class.ascii, rfl⟩
    · rintro w ⟨p, hp, -, hw⟩
      rw [List.mem_singleton.mp hp] at hw
      exact hoct w hw
  have hrun : ∀ st', maybeSamba env X net pw (fuel + 1) (blank env.U dn, st') = maybeSamba env X net pw fuel (s1, st') := by
    intro st'
    rw [maybeSamba, blank_plan hU X dn]
    have hfe : Syntax.fetch (blank env.U dn) = .ok () := rfl
    simp only [hfe]
    rw [show (blank env.U dn).dn = dn from rfl, hfind]
    simp only [show PyStr.text "objectClass".toList = classKey from rfl, hf]
    rfl
  obtain ⟨s', st', e, g1, g2, g3, -, -, g4⟩ := both (s1 := s1) (fuel' := fuel) hU hw X h
    ⟨rfl, hr.textual, hr.lookup, hr.ntHash, hr.lmHash, hr.ntFit, hr.lmFit⟩ rfl hc (by
      intro p hp
      rw [List.mem_singleton.mp hp]
      exact .inr hoct) hn1 hu1 hu2 hrun
  exact ⟨s', st', e, g1, g2, g3, g4⟩

/-! ### Other entries, refused requests -/

/-- **C101** An entry that is not of a class of Samba: only the password is changed, and success is reported. -/
theorem not_samba (hU : Sane env.U) (hw : Works net env luck app f c world) (X : Outside) {st : State} {j : Nat} {n : Tree.Node} {s : Syntax.St} {pw : PyStr}
    (h : Scene env luck st j n s pw) {V : Vocabulary} (hc : Clear V s) (hk : Known s)
    (h1 : ¬ OfClass s.attrs "sambaAccount") (h2 : ¬ OfClass s.attrs "sambaSamAccount") (fuel : Nat) :
    ∃ e, change env X net fuel pw (s, st) = ((s, { st with heap := st.heap.set j { n with entry := e } }), .success) ∧
      e.dn = n.entry.dn ∧ HasPassword env e pw.toBytes luck.salt ∧
      ∀ k, k.lower env.U ≠ Password.textKey.lower env.U → k.lower env.U ≠ Password.bytesKey.lower env.U →
        e.attrs.find env.U k = n.entry.attrs.find env.U k := by
  obtain ⟨e, a1, a2, a3, a4⟩ := first hw h
  refine ⟨e, C51.all_succeed _ _ _ ?_, a2, a3, a4⟩
  rw [sorted]
  refine .cons a1 (.cons ?_ (.nil _))
  show (maybeSamba env X net pw fuel (s, _)).getD _ = _
  unfold maybeSamba
  rw [plan_nothing hU X hc hk h1 h2]
  rfl

/-- **C101** The server refuses to change the password, because nobody or somebody else is bound: nothing is changed, neither at the
server nor in the entry of the client, and the report names the refused step and the one that was not tried. -/
theorem refused (hw : Works net env luck app f c world) (X : Outside) {st : State} {s : Syntax.St} {pw : PyStr}
    (htext : ∀ e, Fit (luck.text e)) (hdns : ∀ n ∈ st.heap, Fit (Utf8.encode n.entry.dn.text)) (hs : s.deleted = false)
    (hfit : Fit (Utf8.encode s.dn.text)) (hpw : Fit pw.toBytes)
    (hb : st.bound = none ∨ ∃ j n, st.bound = some j ∧ st.heap[j]? = some n ∧ s.dn.text ≠ n.entry.dn.text) (fuel : Nat) :
    change env X net fuel pw (s, st) =
      ((s, st), .aggregate [(.extendedOperation, .failed (.ldap (if st.bound = none then 8 else 50))), (.samba, .aborted)]) := by
  have hreq : ∃ r, PasswordRequest.request s pw = .ok r := by
    obtain ⟨v, h1, -, -⟩ := C89.roundtrip (some (Utf8.encode s.dn.text)) none (some pw.toBytes) (by simpa using hfit) nofun (by simpa using hpw)
    exact ⟨_, by simp [PasswordRequest.request, hs, h1]; rfl⟩
  obtain ⟨r, hr⟩ := hreq
  obtain ⟨r', st', m, h1, h2, h3⟩ := C89.decided env luck st (fun i hi => by
      rcases hb with hb | ⟨j, n, hb, hn, -⟩
      · rw [hb] at hi; cases hi
      · rw [hb] at hi; cases hi; exact ⟨n, hn⟩) htext hdns app f c
    (world r st) (hw.connected r st) (hw.id r st) (hw.free r st) s hs pw hfit hpw
  rw [hr] at h1; cases h1
  have hask := hw.ask r st _ _ h2
  have hstep : extendedOperation net pw (s, st) = ((s, st), .trapped (.ldap (if st.bound = none then 8 else 50))) := by
    rcases h3 with ⟨g1, g2, rfl⟩ | ⟨j', n', g1, g2, ⟨g3, g4, rfl⟩ | ⟨g3, -⟩⟩
    · simp only [extendedOperation, hr, hask, g2, outcome, SambaPassword.failure, g1, if_true]
    · simp only [extendedOperation, hr, hask, g4, outcome, SambaPassword.failure, g1]
      simp
    · rcases hb with hb | ⟨j, n, hb, hn, hne⟩
      · rw [hb] at g1; cases g1
      · rw [hb] at g1; cases g1
        rw [hn] at g2; cases g2
        exact absurd g3 hne
  exact C51.first_failure (steps env X net fuel pw) _ _ _ [] _ _ _ (sorted X fuel pw) (.nil _) hstep

/-! ### Where the two passwords part -/

/-- The second step raises something else than an LDAP error. -/
theorem half (hw : Works net env luck app f c world) (X : Outside) {st : State} {j : Nat} {n : Tree.Node} {s : Syntax.St} {pw : PyStr}
    (h : Scene env luck st j n s pw) {x : Syntax.Err} {fuel : Nat} (hx : ∀ st', maybeSamba env X net pw fuel (s, st') = some ((s, st'), .other x)) :
    ∃ e, change env X net fuel pw (s, st) = ((s, { st with heap := st.heap.set j { n with entry := e } }), .other x) ∧
      HasPassword env e pw.toBytes luck.salt ∧
      ∀ k, k.lower env.U ≠ Password.textKey.lower env.U → k.lower env.U ≠ Password.bytesKey.lower env.U →
        e.attrs.find env.U k = n.entry.attrs.find env.U k := by
  obtain ⟨e, a1, -, a3, a4⟩ := first hw h
  refine ⟨e, ?_, a3, a4⟩
  refine C51.other_failure (steps env X net fuel pw) _ _ _ [_] [] _ _ (sorted X fuel pw) (.cons a1 (.nil _)) ?_
  show (maybeSamba env X net pw fuel (s, _)).getD _ = _
  rw [hx]
  rfl

/-- **C101 fails** for passwords that are octets of which the first 128 are not UTF-8: the password is changed, the hashes stay those of
the old password, and what is reported is `UnicodeDecodeError`. -/
theorem half_octets (hU : Sane env.U) (hw : Works net env luck app f c world) (X : Outside) {st : State} {j : Nat} {n : Tree.Node} {s : Syntax.St} {b : Bytes}
    (h : Scene env luck st j n s (.bytes b)) (hb : ∀ t, Utf8.decode (b.take 128) ≠ .ok t) {V : Vocabulary} (hc : Clear V s)
    {ntName lmName : String} (hnames : SambaNames s.attrs ntName lmName) (fuel : Nat) :
    ∃ e, change env X net fuel (.bytes b) (s, st) = ((s, { st with heap := st.heap.set j { n with entry := e } }), .other (.py .unicodeError)) ∧
      HasPassword env e b luck.salt ∧
      ∀ k, k.lower env.U ≠ Password.textKey.lower env.U → k.lower env.U ≠ Password.bytesKey.lower env.U →
        e.attrs.find env.U k = n.entry.attrs.find env.U k := by
  obtain ⟨style, hp, -, -⟩ := plan_set hU X hc hnames
  have hnt : nthash X (.bytes b) = .error .unicodeError := by
    simp only [nthash]
    cases hd : Utf8.decode (b.take 128) with
    | ok t => exact absurd hd (hb t)
    | error x => rw [Utf8.decode_error hd]
  refine half hw X h fun st' => ?_
  unfold maybeSamba
  simp only [hp, setSamba, setHashes, hc.there, hnt]
  rfl

/-- **C101** A password that is UTF-8 may be cut within a character: given as text it can be hashed, given as octets it cannot. -/
theorem cut : ∃ t, (∀ X, ∃ nt, nthash X (.text t) = .ok nt) ∧ ∀ x, Utf8.decode ((Utf8.encode t).take 128) ≠ .ok x := by
  refine ⟨List.replicate 127 'a' ++ ['ä'], fun X => ⟨_, rfl⟩, fun x h => ?_⟩
  have : (match Utf8.decode ((Utf8.encode (List.replicate 127 'a' ++ ['ä'])).take 128) with | .ok _ => true | .error _ => false) = false := by decide +kernel
  rw [h] at this
  cases this

/-- **C101** Passwords that differ only after 128 characters have one hash. -/
theorem same_hash (X : Outside) (a b c : Str) (h : a.length = 128) : nthash X (.text (a ++ b)) = nthash X (.text (a ++ c)) := by
  simp only [nthash, ← h, List.take_left]

/-- **C101 fails** for an entry with changes that were not sent yet, if its classes are not known: the password is changed, the hashes
stay those of the old password, and what is reported is `ObjectDirtyError`. -/
theorem half_dirty (hU : Sane env.U) (hw : Works net env luck app f c world) (X : Outside) {st : State} {j : Nat} {n : Tree.Node} {s : Syntax.St} {pw : PyStr}
    (h : Scene env luck st j n s pw) {V : Vocabulary} (hc : Clear V s) (hk : ∀ p ∈ s.attrs, fold p.1.toBytes ≠ fold (ascii "objectClass"))
    (hi : s.complete = false) (hj : s.journal ≠ []) (fuel : Nat) :
    ∃ e, change env X net (fuel + 1) pw (s, st) = ((s, { st with heap := st.heap.set j { n with entry := e } }), .other .dirty) ∧
      HasPassword env e pw.toBytes luck.salt ∧
      ∀ k, k.lower env.U ≠ Password.textKey.lower env.U → k.lower env.U ≠ Password.bytesKey.lower env.U →
        e.attrs.find env.U k = n.entry.attrs.find env.U k := by
  have hp : plan env.U X s = .ok .fetch := by
    simp only [plan, target_absent hU hc.named hc.there key_class hk, hi]
    rfl
  refine half hw X h fun st' => ?_
  unfold maybeSamba
  simp only [hp, Syntax.fetch, hc.there, hj]
  rfl

/-- **C101 fails** if the server does not show the object classes: the client asks for them again and again. -/
theorem endless (hU : Sane env.U) (X : Outside) (dn : Dn.Dn) (pw : PyStr) (st : State) (o : Verif.Attrs)
    (ho : (Entry.mk dn o).get env.U classKey = .ok none) (hfind : net.find dn st = .ok [o]) (fuel : Nat) :
    maybeSamba env X net pw fuel (blank env.U dn, st) = none := by
  have hp := blank_plan hU X dn
  have hf : Syntax.fetched env (blank env.U dn) [o] [classKey] = (blank env.U dn, none) := by
    rw [fetched_one rfl]
    have hov : Syntax.overwrite env.U ⟨(blank env.U dn).dn, o⟩ [classKey] (blank env.U dn).remote = .ok [] := by
      have : (Entry.mk (blank env.U dn).dn o).get env.U classKey = .ok none := ho
      simp only [Syntax.overwrite, this]
      rfl
    rw [hov]
    have hd : (blank env.U dn).deleted = false := rfl
    have hi : items env ⟨(blank env.U dn).dn, []⟩ = .ok [] := by
      simp only [items, sortItems, otherItems, bind, Except.bind, pure, Except.pure, Verif.Attrs.find, List.append_nil, Except.ok.injEq]
      exact List.filterMap_eq_nil_iff.mpr fun _ _ => rfl
    simp only [Syntax.undo, hd, hi]
    rfl
  induction fuel with
  | zero => unfold maybeSamba; rw [hp]
  | succ fuel ih =>
    unfold maybeSamba
    rw [hp]
    have hfe : Syntax.fetch (blank env.U dn) = .ok () := rfl
    simp only [hfe]
    rw [show (blank env.U dn).dn = dn from rfl, hfind]
    simp only [show PyStr.text "objectClass".toList = classKey from rfl, hf]
    exact ih

/-! ### Witnesses -/

/-- A network over which everything comes back that the server says, to a client that is connected once. -/
noncomputable def honest : Net :=
  ⟨fun r st =>
    haveI := Classical.propDecidable
    if h : ∃ p : State × Obj, Exchanged C40.env C40.luck C89.app 0 0 C89.world (.send 0 r none) st p.1 (.response p.2) then h.choose else (st, r),
   fun _ _ => .ok [[(.bytes (ascii "objectClass"), [.bytes (ascii "top"), .bytes (ascii "SambaSamAccount")])]]⟩

theorem honest_works : Works honest C40.env C40.luck C89.app 0 0 fun _ _ => C89.world := by
  refine ⟨fun _ _ => by decide +kernel, fun _ _ => by decide +kernel, fun _ _ => by decide +kernel, fun r st st' m h => ?_⟩
  have hex : ∃ p : State × Obj, Exchanged C40.env C40.luck C89.app 0 0 C89.world (.send 0 r none) st p.1 (.response p.2) := ⟨(st', m), h⟩
  have hask : honest.ask r st = hex.choose := dif_pos hex
  rw [hask]
  have := exchanged_unique hex.choose_spec h
  exact Prod.ext this.1 (Client.Outcome.response.inj this.2)

/-- A stand-in for the hash functions. -/
def toy : Outside := ⟨fun s => Utf8.encode (s.take 16), fun _ => .error .unicodeError, false, id⟩

/-- `cn=b,dc=a`, as the client has it. -/
def account (cls : String) (journal : List Mod) (complete : Bool) : Syntax.St :=
  let d := [(PyStr.bytes (ascii cls), [PyStr.bytes (ascii "top"), .bytes (ascii "SambaSamAccount")]), (.bytes (ascii "sambaNTPassword"), [.bytes [0x78]])]
  ⟨[[⟨['c','n'], ['b']⟩], [⟨['d','c'], ['a']⟩]], d, d, journal, false, complete⟩

theorem scene (s : Syntax.St) (hd : s.dn = (C89.entry ['c','n']).dn) (hs : s.deleted = false) (pw : PyStr) (hp : pw.toBytes.length < 1000) :
    Scene C40.env C40.luck ⟨C42.heap, some 1⟩ 1 (C42.heap[1]'(by decide +kernel)) s pw :=
  ⟨fun b => C19.toyHash_length b, rfl, rfl, fun e => by simp [Fit, C40.luck], C89.short, hs, by rw [hd]; decide +kernel, by unfold Fit; omega⟩

theorem textual : Textual (C89.entry ['c','n']).dn := by
  constructor <;> decide +kernel

theorem unnamed (key : String) (h : ['c','n'] ≠ key.toList) : Unnamed (C89.entry ['c','n']).dn key :=
  ⟨_, _, rfl, fun a ha => by rw [List.mem_singleton.mp ha]; exact h⟩

theorem names (d : Verif.Attrs) (h1 : (PyStr.bytes (ascii "objectClass"), [PyStr.bytes (ascii "top"), .bytes (ascii "SambaSamAccount")]) ∈ d)
    (h2 : ∀ p ∈ d, fold p.1.toBytes = fold (ascii "objectClass") → p.2 = [PyStr.bytes (ascii "top"), .bytes (ascii "SambaSamAccount")]) :
    SambaNames d "sambaNTPassword" "sambaLMPassword" := by
  refine .new ?_ ⟨.bytes (ascii "SambaSamAccount"), ⟨_, h1, rfl, by simp⟩, by decide +kernel⟩
  rintro ⟨v, ⟨p, hp, e, hv⟩, hf⟩
  rw [h2 p hp e] at hv
  revert hf
  simp only [List.mem_cons, List.not_mem_nil, or_false] at hv
  rcases hv with rfl | rfl <;> decide +kernel

theorem account_clear (cls : String) (hc : (PyStr.bytes (ascii cls)).Ascii) (hn : fold (ascii cls) ≠ fold (ascii "sambaNTPassword")) (l : List Mod) (b : Bool) :
    Clear allOctets (account cls l b) := by
  refine ⟨⟨?_, ?_⟩, ?_, rfl⟩
  · intro p hp
    rcases List.mem_cons.mp hp with rfl | hp
    · exact ⟨hc, rfl⟩
    · rw [List.mem_singleton.mp hp]; exact ⟨by unfold PyStr.Ascii; decide +kernel, rfl⟩
  · exact List.pairwise_cons.mpr ⟨fun q hq => by rw [List.mem_singleton.mp hq]; exact hn, List.pairwise_singleton _ _⟩
  · rintro v ⟨p, hp, -, hv⟩
    rcases List.mem_cons.mp hp with rfl | hp
    · simp only [List.mem_cons, List.not_mem_nil, or_false] at hv
      rcases hv with rfl | rfl <;> rfl
    · rw [List.mem_singleton.mp hp] at hv
      rw [List.mem_singleton.mp hv]; rfl

theorem account_names (l : List Mod) (b : Bool) : SambaNames (account "objectClass" l b).attrs "sambaNTPassword" "sambaLMPassword" := by
  refine names _ List.mem_cons_self ?_
  intro p hp e
  rcases List.mem_cons.mp hp with rfl | hp
  · rfl
  · rw [List.mem_singleton.mp hp] at e
    exfalso
    revert e; decide +kernel

theorem account_ready (s : Syntax.St) (hj : s.journal = []) (hd : s.dn = (C89.entry ['c','n']).dn) :
    Ready C40.env toy ⟨C42.heap, some 1⟩ 1 s (.text ['y']) [0x79] lmhashLocked :=
  ⟨hj, hd ▸ textual, by rw [hd]; decide +kernel, by decide +kernel, rfl, by unfold Fit; decide +kernel, by unfold Fit; decide +kernel⟩

example := changed_partial asciiTables_sane honest_works toy (scene (account "objectClass" [] true) rfl rfl (.text ['y']) (by decide +kernel))
  (account_ready _ rfl rfl) (account_clear "objectClass" (by unfold PyStr.Ascii; decide +kernel) (by decide +kernel) [] true) (by
    intro p hp
    rcases List.mem_cons.mp hp with rfl | hp
    · exact .inr (by simp [PyStr.isText])
    · rw [List.mem_singleton.mp hp]; exact .inr (by simp [PyStr.isText])) (account_names _ _)
  (unnamed _ (by decide +kernel)) (unnamed _ (by decide +kernel)) 0

/-- The entry of the client knows the old hash under the name as octets, and goes on to do so. -/
example : (account "objectClass" [] true).attrs.find asciiTables (.bytes (ascii "sambaNTPassword")) = some [.bytes [0x78]] := by decide +kernel

example := blank_changed_partial asciiTables_sane honest_works toy (dn := (C89.entry ['c','n']).dn) (scene (blank asciiTables _) rfl rfl (.text ['y']) (by decide +kernel))
  (account_ready _ rfl rfl) _ (fun _ => rfl) ⟨⟨by
    intro p hp
    rw [List.mem_singleton.mp hp]; exact ⟨by unfold PyStr.Ascii; decide +kernel, rfl⟩, List.pairwise_singleton _ _⟩, by
    intro p hp v hv
    rw [List.mem_singleton.mp hp] at hv
    simp only [List.mem_cons, List.not_mem_nil, or_false] at hv
    rcases hv with rfl | rfl
    · exact ⟨rfl, PyStr.ascii_decodable (by unfold PyStr.Ascii; decide +kernel)⟩
    · exact ⟨rfl, PyStr.ascii_decodable (by unfold PyStr.Ascii; decide +kernel)⟩, by decide +kernel⟩
  (names _ (List.mem_singleton.mpr rfl) fun p hp _ => by rw [List.mem_singleton.mp hp]) (unnamed _ (by decide +kernel)) (unnamed _ (by decide +kernel)) 0

theorem no_class (cls : String) : ¬ OfClass (account "description" [] true).attrs cls := by
  rintro ⟨v, ⟨p, hp, e, -⟩, -⟩
  have : ∀ p ∈ (account "description" [] true).attrs, fold p.1.toBytes ≠ fold (ascii "objectClass") := by decide +kernel
  exact this p hp e

example := not_samba asciiTables_sane honest_works toy (scene (account "description" [] true) rfl rfl (.text ['y']) (by decide +kernel))
  (account_clear "description" (by unfold PyStr.Ascii; decide +kernel) (by decide +kernel) [] true) (.inl rfl)
  (no_class _) (no_class _) 0

example := refused honest_works toy (st := ⟨C42.heap, none⟩) (s := account "objectClass" [] true) (pw := .text ['y'])
  (fun e => by simp [Fit, C40.luck]) C89.short rfl (by unfold Fit; decide +kernel) (by unfold Fit; decide +kernel) (.inl rfl) 0

example := half_octets asciiTables_sane honest_works toy (b := [0xff]) (scene (account "objectClass" [] true) rfl rfl _ (by decide +kernel))
  (by intro t h
      have : (match Utf8.decode (List.take 128 [0xff]) with | .ok _ => true | .error _ => false) = false := by decide +kernel
      rw [h] at this
      cases this) (account_clear "objectClass" (by unfold PyStr.Ascii; decide +kernel) (by decide +kernel) [] true) (account_names _ _) 0

example := half_dirty asciiTables_sane honest_works toy (scene (account "description" [⟨.add, .bytes (ascii "mail"), []⟩] false) rfl rfl (.text ['y']) (by decide +kernel))
  (account_clear "description" (by unfold PyStr.Ascii; decide +kernel) (by decide +kernel) _ false) (by decide +kernel) rfl nofun 0

example := endless (env := C40.env) (net := ⟨fun r st => (st, r), fun _ _ => .ok [[]]⟩) asciiTables_sane toy (C89.entry ['c','n']).dn (.text ['y']) ⟨C42.heap, some 1⟩ []
  (by decide +kernel) rfl 5

end Verif.C101
