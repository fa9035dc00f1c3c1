import Verif.Model.PasswordRequest
import Verif.Props.C43
import Verif.Props.C82
/-
C89  Changing the password through the library's client and server.

`roundtrip`: the request says on the wire what it was made of.  `decided`: a program calls `setPassword_ExtendedOperation`, the
request goes to the server, its answer comes back: what becomes of the tree, and what the Deferred is given.
`changed_partial`: afterwards the new password, and up to collisions of the hash only it, lets the user in.
`respelled`: the user is refused if the entry of the client has another spelling of the DN.
-/
namespace Verif.C89
open Verif.Ldap Verif.Spec Verif.Spec.Modify Verif.Server Verif.PasswordRequest Verif.Session

/-! ### The request -/

theorem encodes_parts (user old new : Option Bytes) (hu : ∀ b ∈ user, Fit b) (ho : ∀ b ∈ old, Fit b) (hn : ∀ b ∈ new, Fit b) :
    ∃ c, toWireList (parts user old new) = .ok c ∧ c.length ≤ 2 ^ 34 ∧ DecL (.inh .passwordModify (.base .ber)) c (parts user old new) := by
  have key : ∀ (cls : Cls) (tag : UInt8) (x : Option Bytes) (l : List Obj) (c : Bytes), octLike cls = true →
      (Ctx.inh .passwordModify (.base .ber)).lookup (tag &&& 0xDF) = some cls → tag &&& 0xDF = tag → (∀ b ∈ x, Fit b) →
      toWireList l = .ok c → DecL (.inh .passwordModify (.base .ber)) c l →
      ∃ c', toWireList (part cls tag x ++ l) = .ok c' ∧ c'.length ≤ c.length + 2 ^ 32 + 200 ∧
        DecL (.inh .passwordModify (.base .ber)) c' (part cls tag x ++ l) := by
    intro cls tag x l c hc hl ht hx hw hd
    cases x with
    | none => exact ⟨c, hw, by omega, hd⟩
    | some b =>
      have hb := hx b rfl
      unfold Fit at hb
      have h64 : 2 ^ 64 < lengthLimit := two64_lt_limit
      obtain ⟨w, h1, h2⟩ := W.encOct tag b (by unfold octSize elementSize; omega)
      have hdec := Dec.oct (ctx := .inh .passwordModify (.base .ber)) h1 hl hc
      rw [ht] at hdec
      refine ⟨w ++ c, ?_, ?_, DecL.cons hdec hd⟩
      · simp only [part, List.cons_append, List.nil_append, toWireList, toWire, h1, hw, bind, Except.bind, pure, Except.pure]
      · unfold octSize elementSize at h2
        rw [List.length_append]; omega
  obtain ⟨c1, a1, b1, d1⟩ := key .pmNew 0x82 new [] [] rfl rfl (by decide) hn rfl (DecL.nil _)
  obtain ⟨c2, a2, b2, d2⟩ := key .pmOld 0x81 old _ c1 rfl rfl (by decide) ho a1 d1
  obtain ⟨c3, a3, b3, d3⟩ := key .pmUser 0x80 user _ c2 rfl rfl (by decide) hu a2 d2
  have e : parts user old new = part .pmUser 0x80 user ++ (part .pmOld 0x81 old ++ (part .pmNew 0x82 new ++ [])) := by
    simp [parts]
  rw [e]
  refine ⟨c3, a3, ?_, d3⟩
  simp only [List.length_nil] at b1
  omega

theorem parts_ask (user old new : Option Bytes) : C43.Parts (parts user old new) user old new := by
  have h1 : C43.Parts (part .pmNew 0x82 new) none none new := by
    cases new with
    | none => exact .nil
    | some b => exact .new _ _ .nil
  have h2 : C43.Parts (part .pmOld 0x81 old ++ part .pmNew 0x82 new) none old new := by
    cases old with
    | none => exact h1
    | some b => exact .old _ _ h1
  unfold parts
  rw [List.append_assoc]
  cases user with
  | none => exact h2
  | some b => exact .user _ _ h2

/-- **C89** The value of a request says on the wire what it was made of. -/
theorem roundtrip (user old new : Option Bytes) (hu : ∀ b ∈ user, Fit b) (ho : ∀ b ∈ old, Fit b) (hn : ∀ b ∈ new, Fit b) :
    ∃ v, passwordModifyRequest user old new = .ok (C43.request 0x57 v) ∧ v.length < 2 ^ 35 ∧ C43.Asks v user old new := by
  obtain ⟨c, h1, h2, h3⟩ := encodes_parts user old new hu ho hn
  have h64 : 2 ^ 64 < lengthLimit := two64_lt_limit
  obtain ⟨w, g1, g2⟩ := W.tlv (structured 0x10) h2 (by unfold elementSize; omega)
  refine ⟨w, ?_, ?_, .seq .sequence 0x10 (parts user old new), parts user old new, ?_, rfl, parts_ask _ _ _⟩
  · simp only [passwordModifyRequest, value, toWire, h1, g1, bind, Except.bind, pure, Except.pure]
    rfl
  · unfold elementSize at g2; omega
  · exact DecL.one (Dec.seq (ctx := passwordModifyCtx) g1 (by decide) rfl (.inl rfl) h3)

/-! ### The exchange -/

set_option maxRecDepth 4000 in
theorem size_bound {x y L : Nat} (hx : x < 2 ^ 35) (hy : y < 2 ^ 31) (h : 2 ^ 64 < L) :
    y + 1 + 129 + (23 + 129 + (x + 129) + 129 + 0) + 129 < L := by omega

/-- **C89** A program calls `setPassword_ExtendedOperation` of an entry; what the client writes goes over the network to the server,
in any segments; what the server writes comes back, in any segments.  Without a bound user the Deferred fails with
`strongAuthRequired`; if the text of the DN is not that of the bound user, with `insufficientAccessRights`; nothing is changed then.
Otherwise the server sets the password, and the Deferred succeeds. -/
theorem decided (env : Env) (luck : Luck) (st : State) (hb : ∀ j, st.bound = some j → ∃ n, st.heap[j]? = some n)
    (htext : ∀ e, Fit (luck.text e)) (hdns : ∀ n ∈ st.heap, Fit (Utf8.encode n.entry.dn.text))
    (app : Client.App) (fuel c : Nat) (w : Client.World) (hconn : (w.conns c).connected = true) (hid : 0 < w.nextId ∧ w.nextId < 2 ^ 31)
    (hfree : (w.conns c).onwire.lookup w.nextId = none)
    (s : Syntax.St) (hs : s.deleted = false) (pw : PyStr) (hdn : Fit (Utf8.encode s.dn.text)) (hpw : Fit pw.toBytes) :
    ∃ r st' m, request s pw = .ok r ∧ Exchanged env luck app fuel c w (.send c r none) st st' (.response m) ∧
      ((st.bound = none ∧ answered m = some (.ldap 8) ∧ st' = st) ∨
       ∃ j n, st.bound = some j ∧ st.heap[j]? = some n ∧
        ((s.dn.text ≠ n.entry.dn.text ∧ answered m = some (.ldap 50) ∧ st' = st) ∨
         (s.dn.text = n.entry.dn.text ∧ answered m = none ∧ ∃ e,
            Password.setPassword env.U env.sha1 env.passwordTextFirst n.entry pw.toBytes luck.salt = .ok e ∧
            st' = { st with heap := st.heap.set j { n with entry := e } }))) := by
  obtain ⟨v, h1, h2, h3⟩ := roundtrip (some (Utf8.encode s.dn.text)) none (some pw.toBytes) (by simpa using hdn) nofun (by simpa using hpw)
  have hreq : request s pw = .ok (C43.request 0x57 v) := by simp [request, hs, h1]
  have hoid : (ascii "1.3.6.1.4.1.4203.1.11.1").length = 23 := by decide +kernel
  have hfits : Fits luck st (C43.request 0x57 v) none := by
    refine ⟨htext, hdns, nofun, fun t n v' h => ?_, fun t v d a h => by cases h⟩
    simp only [C43.request, Obj.extRequest.injEq, PyVal.bytes.injEq] at h
    rw [← h.2.1]
    unfold Fit; omega
  obtain ⟨sv, op, code, k1, k2, -, ⟨-, ⟨msg, name, rfl⟩, henc⟩, k4⟩ := C43.decided env luck st w.nextId 0x57 v none _ _ _ h3 hid hfits nofun hb
  have hop : (Op.extRequest (ascii "1.3.6.1.4.1.4203.1.11.1") (some v)).build = C43.request 0x57 v := rfl
  have hsize : (Msg.mk w.nextId (.extRequest (ascii "1.3.6.1.4.1.4203.1.11.1") (some v)) none).size < lengthLimit := by
    have h64 : 2 ^ 64 < lengthLimit := two64_lt_limit
    have : w.nextId.natAbs < 2 ^ 31 := by omega
    simp only [Msg.size, Op.size, controlsSize, optSize, octSize, intSize, elementSize, hoid]
    exact size_bound h2 this h64
  have hex := exchange env luck st app fuel c w hconn (by omega) hfree (.send c (C43.request 0x57 v) none) .plain nofun
    (.extRequest (ascii "1.3.6.1.4.1.4203.1.11.1") (some v)) (.extResponse code [] msg name none) trivial (by simp only [Client.call]; rfl) rfl
    hsize sv k1 k2 trivial rfl henc
  refine ⟨_, sv.state, _, hreq, hex, ?_⟩
  have hans : answered (received (.extResponse code [] msg name none)) = if code ≠ 0 then some (.ldap code) else none := by
    simp only [received, Op.build, answered]
    split
    · rfl
    · rfl
  have hinj : ∀ d d' : Dn.Dn, Utf8.encode d.text = Utf8.encode d'.text → d.text = d'.text := by
    intro d d' h
    have := Utf8.decode_encode d.text
    rw [h, Utf8.decode_encode] at this
    exact (Except.ok.inj this).symm
  show (_ ∧ answered (received (.extResponse code [] msg name none)) = _ ∧ _) ∨ _
  rw [hans]
  rcases k4 with ⟨g1, rfl, g2⟩ | ⟨j, n, g1, g2, ⟨u, e, hne, rfl, g3⟩ | ⟨hu, ⟨ho, -⟩ | ⟨pw', e, -, e1, rfl, g3, g4⟩⟩⟩
  · exact .inl ⟨g1, rfl, g2⟩
  · cases e
    exact .inr ⟨j, n, g1, g2, .inl ⟨fun h => hne (by rw [h]), rfl, g3⟩⟩
  · rcases ho with h | h <;> simp at h
  · cases e1
    exact .inr ⟨j, n, g1, g2, .inr ⟨hinj _ _ (hu _ rfl), rfl, e, g3, g4⟩⟩

/-- **C89** The Deferred succeeds exactly for an extended response with success and without a matched DN, and fails with the result
code of an extended response exactly if that is not success. -/
theorem success_iff {m : Obj} {op : Op} (h : readOp m = some op) :
    (answered m = none ↔ ∃ e n v, op = .extResponse 0 [] e n v) ∧
    ∀ code, answered m = some (.ldap code) ↔ code ≠ 0 ∧ ∃ d e n v, op = .extResponse code d e n v := by
  by_cases hm : ∃ t c d e n v, m = .extResponse t c d e n v
  · obtain ⟨t, c, d, e, n, v, rfl⟩ := hm
    simp only [readOp] at h
    repeat (replace h := C52.bind_some h; obtain ⟨_, _, h⟩ := h)
    cases h
    rename_i c' hc d' hd e' _ n' _ v' _
    have hc : c = .int c' := by cases c <;> simp [asInt] at hc; rw [hc]
    rw [hc, C52.asBytes_eq hd]
    by_cases h0 : c' = 0
    · subst h0
      by_cases hd0 : d' = []
      · subst hd0
        simp [answered, Syntax.noDn]
        intro code h1 h2
        exact absurd h2.symm h1
      · simp [answered, Syntax.noDn, hd0]
        intro code h1 h2
        exact absurd h2.symm h1
    · simp [answered, h0]
  · have ha : answered m = some (.py .assertionError) := by
      unfold answered
      split
      · exact absurd ⟨_, _, _, _, _, _, rfl⟩ hm
      · rfl
    have hop : ∀ c d e n v, op ≠ .extResponse c d e n v := by
      rintro c d e n v rfl
      unfold readOp at h
      split at h
      all_goals try (repeat (replace h := C52.bind_some h; obtain ⟨_, _, h⟩ := h))
      all_goals cases h
      exact hm ⟨_, _, _, _, _, _, rfl⟩
    rw [ha]
    refine ⟨⟨nofun, fun ⟨e, n, v, h⟩ => absurd h (hop _ _ _ _ _)⟩, fun code => ⟨nofun, fun ⟨_, d, e, n, v, h⟩ => absurd h (hop _ _ _ _ _)⟩⟩

/-- **C89** An entry that was deleted sends nothing. -/
theorem deleted_refused (s : Syntax.St) (h : s.deleted = true) (pw : PyStr) : request s pw = .error .deleted := by
  simp [request, h]

/-! ### Using the new password -/

theorem dnOf_set {h : Tree.Heap} {j : Nat} {n : Tree.Node} (hn : h[j]? = some n) {e : Entry} (he : e.dn = n.entry.dn) (i : Nat) :
    Tree.dnOf (h.set j { n with entry := e }) i = Tree.dnOf h i := by
  unfold Tree.dnOf
  by_cases hi : i = j
  · subst hi
    have hlt : i < h.length := (List.getElem?_eq_some_iff.mp hn).1
    rw [List.getElem?_set_self hlt, hn]
    simp [he]
  · rw [List.getElem?_set_ne (fun h => hi h.symm)]

theorem lookup_set (U : Unicode) {h : Tree.Heap} {j : Nat} {n : Tree.Node} (hn : h[j]? = some n) {e : Entry} (he : e.dn = n.entry.dn) (d : Dn.Dn) :
    Tree.lookup U (h.set j { n with entry := e }) 0 d = Tree.lookup U h 0 d := by
  have hlt : j < h.length := (List.getElem?_eq_some_iff.mp hn).1
  have key : ∀ fuel i, Tree.lookupLoop U (h.set j { n with entry := e }) fuel i d = Tree.lookupLoop U h fuel i d := by
    intro fuel
    induction fuel with
    | zero => intro i; rfl
    | succ fuel ih =>
      intro i
      simp only [Tree.lookupLoop, dnOf_set hn he]
      by_cases hi : i = j
      · subst hi
        rw [List.getElem?_set_self hlt, hn]
        simp only [he, ih]
      · rw [List.getElem?_set_ne (fun h => hi h.symm)]
        simp only [ih]
  unfold Tree.lookup
  rw [List.length_set]
  exact key _ _

/-- **C89** The whole way: a user whose entry the client has under the DN of the server sets a password.  The Deferred succeeds, no
other entry and no other attribute changes, and who binds afterwards with a name of the user - over whatever connection - is let in
exactly with a password that has the hash of the new one.  Missing for the whole property: other spellings of the DN. -/
theorem changed_partial (env : Env) (h20 : ∀ b, (env.sha1 b).length = 20) (luck : Luck) (st : State) (j : Nat) (n : Tree.Node)
    (hb : st.bound = some j) (hn : st.heap[j]? = some n)
    (htext : ∀ e, Fit (luck.text e)) (hdns : ∀ n ∈ st.heap, Fit (Utf8.encode n.entry.dn.text))
    (app : Client.App) (fuel c : Nat) (w : Client.World) (hconn : (w.conns c).connected = true) (hid : 0 < w.nextId ∧ w.nextId < 2 ^ 31)
    (hfree : (w.conns c).onwire.lookup w.nextId = none)
    (s : Syntax.St) (hs : s.deleted = false) (hdn : s.dn.text = n.entry.dn.text) (pw : PyStr) (hpw : Fit pw.toBytes) :
    ∃ r st' m e, request s pw = .ok r ∧ Exchanged env luck app fuel c w (.send c r none) st st' (.response m) ∧ answered m = none ∧
      st'.bound = st.bound ∧ st'.heap = st.heap.set j { n with entry := e } ∧ e.dn = n.entry.dn ∧
      (∀ k, k.lower env.U ≠ Password.textKey.lower env.U → k.lower env.U ≠ Password.bytesKey.lower env.U →
        e.attrs.find env.U k = n.entry.attrs.find env.U k) ∧
      ∀ (luck' : Luck) (bound : Option Nat) (app' : Client.App) (fuel' c' : Nat) (w' : Client.World) (b q : Bytes) (d : Dn.Dn),
        (∀ e, Fit (luck'.text e)) → (w'.conns c').connected = true → 0 < w'.nextId ∧ w'.nextId < 2 ^ 31 →
        (w'.conns c').onwire.lookup w'.nextId = none → (Msg.mk w'.nextId (.bindSimple 3 b q) none).size < lengthLimit →
        b ≠ [] → Means env.U b d → Tree.lookup env.U st.heap 0 d = .ok j →
        ∃ st'' o, Exchanged env luck' app' fuel' c' w' (.bind c' (.bytes b) (.bytes q)) { st' with bound := bound } st'' o ∧
          st''.heap = st'.heap ∧
          ((env.sha1 (q ++ luck.salt) = env.sha1 (pw.toBytes ++ luck.salt) ∧ (∃ m x, o = .bound m x) ∧ st''.bound = some j) ∨
           (env.sha1 (q ++ luck.salt) ≠ env.sha1 (pw.toBytes ++ luck.salt) ∧
             (∃ t m e x, o = .failed (.result .bindResponse t (.int 49) m e x)) ∧ st''.bound = bound)) := by
  obtain ⟨r, st', m, h1, h2, h3⟩ := decided env luck st (fun i hi => by rw [hb] at hi; cases hi; exact ⟨n, hn⟩) htext hdns app fuel c w
    hconn hid hfree s hs pw (by rw [hdn]; exact hdns n (List.mem_of_getElem? hn)) hpw
  rcases h3 with ⟨h, -⟩ | ⟨j', n', g1, g2, ⟨h, -⟩ | ⟨-, g3, e, g4, rfl⟩⟩
  · rw [hb] at h; cases h
  · rw [hb] at g1; cases g1
    rw [hn] at g2; cases g2
    exact absurd hdn h
  rw [hb] at g1; cases g1
  rw [hn] at g2; cases g2
  obtain ⟨k1, k2⟩ := C19.others_unchanged _ _ _ _ _ _ _ g4
  refine ⟨r, _, m, e, h1, h2, g3, rfl, rfl, k1, k2, ?_⟩
  intro luck' bound app' fuel' c' w' b q d ht' hconn' hid' hfree' hsize' hne hd hl
  have hlt : j < st.heap.length := (List.getElem?_eq_some_iff.mp hn).1
  have hl' : Tree.lookup env.U (st.heap.set j { n with entry := e }) 0 d = .ok j := by rw [lookup_set env.U hn k1]; exact hl
  have hn' : (st.heap.set j { n with entry := e })[j]? = some { n with entry := e } := List.getElem?_set_self hlt
  obtain ⟨-, htry⟩ := C43.new_password_works env h20 n e pw.toBytes luck.salt q env.passwordTextFirst g4
  obtain ⟨st'', o, hex, hh, ho⟩ := C82.bind_exchanged env luck' ⟨st.heap.set j { n with entry := e }, bound⟩ app' fuel' c' w' hconn' hid' hfree' b q
    hsize' ht' (by
      intro x hx
      rcases List.mem_or_eq_of_mem_set hx with hx | rfl
      · exact hdns x hx
      · show Fit (Utf8.encode e.dn.text)
        rw [k1]; exact hdns n (List.mem_of_getElem? hn))
  refine ⟨st'', o, hex, hh, ?_⟩
  obtain ⟨sx, hdec, hparse⟩ := hd
  by_cases hq : env.sha1 (q ++ luck.salt) = env.sha1 (pw.toBytes ++ luck.salt)
  · rw [decide_eq_true hq] at htry
    have hv : C42.Verified env ⟨st.heap.set j { n with entry := e }, bound⟩ (.bind 0x40 (.int 3) (.bytes b) (.simple (.bytes q))) none (some j) :=
      .user nofun hne hdec hparse hl' hn' (.simple _) htry
    rcases ho with ⟨g, hv'⟩ | ⟨_, _, _, _, _, _, _, _, h, _⟩
    · refine .inl ⟨hq, g, ?_⟩
      generalize st''.bound = y at hv'
      cases hv' with
      | anonymous => exact absurd rfl hne
      | user _ _ g1 g2 g3 _ _ _ =>
        rw [hdec] at g1; cases g1
        rw [hparse] at g2; cases g2
        have g3 : Tree.lookup env.U (st.heap.set j { n with entry := e }) 0 d = _ := g3
        rw [hl'] at g3; cases g3
        rfl
    · exact absurd hv (h _)
  · rw [decide_eq_false hq] at htry
    rcases ho with ⟨g, hv'⟩ | ⟨t, code, m', e', x, rfl, _, hbd, _, h49⟩
    · exfalso
      generalize st''.bound = y at hv'
      cases hv' with
      | anonymous => exact absurd rfl hne
      | user _ _ g1 g2 g3 g4 g5 g6 =>
        rw [hdec] at g1; cases g1
        rw [hparse] at g2; cases g2
        have g3 : Tree.lookup env.U (st.heap.set j { n with entry := e }) 0 d = _ := g3
        rw [hl'] at g3; cases g3
        have g4 : (st.heap.set j { n with entry := e })[j]? = _ := g4
        rw [hn'] at g4; cases g4
        cases g5
        rw [htry] at g6; cases g6
    · have hr : readDn env.U (.bytes b) = .ok d := by simp only [readDn, hdec, bind, Except.bind]; exact hparse
      have := h49 d j _ hne hr hl' hn' htry
      subst this
      exact .inr ⟨hq, ⟨t, m', e', x, rfl⟩, hbd⟩

/-! ### Witnesses -/

theorem short (n : Tree.Node) (hn : n ∈ C42.heap) : Fit (Utf8.encode n.entry.dn.text) := by
  simp only [C42.heap, List.mem_cons, List.not_mem_nil, or_false] at hn
  rcases hn with rfl | rfl <;> unfold Fit <;> decide +kernel

def app : Client.App := fun _ => ⟨[], false, false⟩

/-- The process after it is connected. -/
def world : Client.World := Client.run app 0 [.made 0]

/-- An entry of the client with the given type of the RDN. -/
def entry (type : Str) : Syntax.St := Syntax.init asciiTables [[⟨type, ['b']⟩], [⟨['d','c'], ['a']⟩]] [] false

/-- `cn=b,dc=a` sets a new password. -/
example := changed_partial C40.env (fun b => C19.toyHash_length b) C40.luck ⟨C42.heap, some 1⟩ 1 _ rfl rfl (fun e => by simp [Fit, C40.luck]) short app 0 0
  world (by decide +kernel) (by decide +kernel) (by decide +kernel) (entry ['c','n']) (by decide +kernel) (by decide +kernel) (.bytes [0x79])
  (by unfold Fit; decide +kernel)

/-- The name by which they bind then leads to the entry. -/
example : ascii "CN=b,dc=a" ≠ [] ∧ Means asciiTables (ascii "CN=b,dc=a") (entry ['C','N']).dn ∧
    (match Tree.lookup asciiTables C42.heap 0 (entry ['C','N']).dn with | .ok i => some i | .error _ => none) = some 1 := by
  refine ⟨by decide +kernel, ⟨"CN=b,dc=a".toList, by decide +kernel, by decide +kernel⟩, by decide +kernel⟩

/-- **C89** Where the property fails: a user who is bound as `CN=b,dc=a`, which is `cn=b,dc=a`, and whose entry the client has under
that name, is refused. -/
theorem respelled :
    C42.boundAfter ⟨C42.heap, none⟩ [.bind 0x40 (.int 3) (.bytes (ascii "CN=b,dc=a")) (.simple (.bytes [0x78]))] = some 1 ∧
    Dn.Dn.eq asciiTables (entry ['C','N']).dn (Tree.dnOf C42.heap 1) = true ∧
    ∃ r m, request (entry ['C','N']) (.bytes [0x79]) = .ok r ∧
      Exchanged C40.env C40.luck app 0 0 world (.send 0 r none) ⟨C42.heap, some 1⟩ ⟨C42.heap, some 1⟩ (.response m) ∧ answered m = some (.ldap 50) := by
  refine ⟨by decide +kernel, by decide +kernel, ?_⟩
  obtain ⟨r, st', m, h1, h2, h3⟩ := decided C40.env C40.luck ⟨C42.heap, some 1⟩ (fun j hj => by cases hj; exact ⟨_, rfl⟩)
    (fun e => by simp [Fit, C40.luck]) short app 0 0 world (by decide +kernel) (by decide +kernel) (by decide +kernel) (entry ['C','N'])
    (by decide +kernel) (.bytes [0x79]) (by unfold Fit; decide +kernel) (by unfold Fit; decide +kernel)
  rcases h3 with ⟨h, -⟩ | ⟨j, n, g1, g2, ⟨-, g3, rfl⟩ | ⟨h, -⟩⟩
  · cases h
  · exact ⟨r, m, h1, h2, g3⟩
  · cases g1
    cases g2
    exfalso
    revert h
    decide +kernel

end Verif.C89
