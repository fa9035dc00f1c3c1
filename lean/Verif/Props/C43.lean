import Verif.Props.C42
/-
C43  A user can change only their own password.

Proved for every password-modify request (and every other extended request).  The title is false of the server as a whole:
an ordinary modify request changes anybody's password without any bind (`modify_unprotected`); the code says so itself
(ldapserver.py has no access control).
-/
namespace Verif.C43
open Verif.Ldap Verif.Spec Verif.Server Verif.C41

/-- The parts of a password-modify request, RFC 3062 section 2: at most one user identity, one old and one new password. -/
inductive Parts : List Obj → Option Bytes → Option Bytes → Option Bytes → Prop where
  | nil : Parts [] none none none
  | user {l o n} (t v) : Parts l none o n → Parts (.oct .pmUser t v :: l) (some v) o n
  | old {l u n} (t v) : Parts l u none n → Parts (.oct .pmOld t v :: l) u (some v) n
  | new {l u o} (t v) : Parts l u o none → Parts (.oct .pmNew t v :: l) u o (some v)

/-- What the value of a password-modify request asks for: it is one sequence of such parts. -/
def Asks (value : Bytes) (user old new : Option Bytes) : Prop :=
  ∃ data l, berDecodeMultiple value passwordModifyCtx = .ok [data] ∧ data.data? = some l ∧ Parts l user old new

private theorem parts_sound {l : List Obj} {u o n u' o' n' : Option Bytes} (h : passwordParts l (u, o, n) = some (u', o', n')) :
    ∃ a b c, Parts l a b c ∧ (u = none ∨ a = none) ∧ (o = none ∨ b = none) ∧ (n = none ∨ c = none) ∧
      u' = u.or a ∧ o' = o.or b ∧ n' = n.or c := by
  induction l generalizing u o n with
  | nil =>
    simp only [passwordParts, Option.some.injEq, Prod.mk.injEq] at h; obtain ⟨rfl, rfl, rfl⟩ := h
    exact ⟨none, none, none, .nil, by simp⟩
  | cons x l ih =>
    unfold passwordParts at h
    split at h
    · contradiction
    · rename_i t v r u o n heq1 heq2
      cases heq1; cases heq2
      split at h
      · cases h
      · rename_i hs
        have hu : u = none := by simpa using hs
        obtain ⟨a, b, c, h1, h2, h3, h4, rfl, rfl, rfl⟩ := ih h
        subst hu
        have ha : a = none := by simpa using h2
        subst ha
        exact ⟨some v, b, c, .user t v h1, .inl rfl, h3, h4, rfl, rfl, rfl⟩
    · rename_i t v r u o n heq1 heq2
      cases heq1; cases heq2
      split at h
      · cases h
      · rename_i hs
        have hu : o = none := by simpa using hs
        obtain ⟨a, b, c, h1, h2, h3, h4, rfl, rfl, rfl⟩ := ih h
        subst hu
        have ha : b = none := by simpa using h3
        subst ha
        exact ⟨a, some v, c, .old t v h1, h2, .inl rfl, h4, rfl, rfl, rfl⟩
    · rename_i t v r u o n heq1 heq2
      cases heq1; cases heq2
      split at h
      · cases h
      · rename_i hs
        have hu : n = none := by simpa using hs
        obtain ⟨a, b, c, h1, h2, h3, h4, rfl, rfl, rfl⟩ := ih h
        subst hu
        have ha : c = none := by simpa using h4
        subst ha
        exact ⟨a, b, some v, .new t v h1, h2, h3, .inl rfl, rfl, rfl, rfl⟩
    · cases h

private theorem parts_complete {l : List Obj} {a b c : Option Bytes} (h : Parts l a b c) : ∀ {u o n : Option Bytes},
    (u = none ∨ a = none) → (o = none ∨ b = none) → (n = none ∨ c = none) →
    passwordParts l (u, o, n) = some (u.or a, o.or b, n.or c) := by
  induction h with
  | nil => intros; simp [passwordParts]
  | user t v h ih =>
    intro u o n h1 h2 h3
    have : u = none := by simpa using h1
    subst this
    simp [passwordParts, ih (u := some v) (.inr rfl) h2 h3]
  | old t v h ih =>
    intro u o n h1 h2 h3
    have : o = none := by simpa using h2
    subst this
    simp [passwordParts, ih (o := some v) h1 (.inr rfl) h3]
  | new t v h ih =>
    intro u o n h1 h2 h3
    have : n = none := by simpa using h3
    subst this
    simp [passwordParts, ih (n := some v) h1 h2 (.inr rfl)]

private theorem parts_iff {l : List Obj} {a b c : Option Bytes} :
    passwordParts l (none, none, none) = some (a, b, c) ↔ Parts l a b c := by
  constructor
  · intro h
    obtain ⟨a, b, c, h1, -, -, -, rfl, rfl, rfl⟩ := parts_sound h
    simpa using h1
  · intro h
    simpa using parts_complete h (.inl rfl) (.inl rfl) (.inl rfl)

private theorem asks_unique {v : Bytes} {a b c a' b' c' : Option Bytes} (h : Asks v a b c) (h' : Asks v a' b' c') :
    a = a' ∧ b = b' ∧ c = c' := by
  obtain ⟨d, l, h1, h2, h3⟩ := h
  obtain ⟨d', l', h1', h2', h3'⟩ := h'
  rw [h1] at h1'; cases h1'
  rw [h2] at h2'; cases h2'
  have e := (parts_iff.mpr h3).symm.trans (parts_iff.mpr h3')
  simpa using e

/-- An extended request changes nothing but the password of the bound user, and only if it is a password-modify request
that names that user or nobody, gives a new password and no old one. -/
theorem only_own (env : Env) (luck : Luck) (st : State) (id : PyVal) (t : UInt8) (name value : PyVal)
    (cs : Option Controls) (s : Served) (h : serve env luck st (.message id (.extRequest t name value) cs) = some s)
    (hch : s.state ≠ st) :
    s.state.bound = st.bound ∧ ∃ i n e v user new, st.bound = some i ∧ st.heap[i]? = some n ∧
      name = .bytes (ascii "1.3.6.1.4.1.4203.1.11.1") ∧ value = .bytes v ∧ Asks v user none (some new) ∧
      (∀ u, user = some u → u = Utf8.encode (Tree.dnOf st.heap i).text) ∧
      s.state.heap = st.heap.set i { n with entry := e } ∧
      Password.setPassword env.U env.sha1 env.passwordTextFirst n.entry new luck.salt = .ok e := by
  simp only [serve, isRequest, if_true, call] at h
  split at h
  · cases h; exact absurd rfl hch
  · cases h
    simp only at hch ⊢
    cases hx : handleExtended env luck st name value cs with
    | error f => rw [hx] at hch; exact absurd rfl hch
    | ok x =>
      obtain ⟨h', r⟩ := x
      rw [hx] at hch
      refine ⟨by simp [onHeap], ?_⟩
      simp only [onHeap]
      have hne : h' ≠ st.heap := by
        intro hh; apply hch; simp [onHeap, hh]
      unfold handleExtended at hx
      cases hc : checkControls cs with
      | error f => simp [hc, bind, Except.bind] at hx
      | ok y =>
        simp only [hc, bind, Except.bind] at hx
        split at hx
        · rename_i hname
          split at hx
          · rename_i v
            cases hd : berDecodeMultiple v passwordModifyCtx with
            | error e => simp [hd, lift] at hx
            | ok l =>
              simp only [hd, lift] at hx
              split at hx
              · rename_i data
                split at hx
                · rename_i h'' hp
                  cases hx
                  unfold passwordModify at hp
                  split at hp
                  · cases hp
                  · rename_i l hl
                    split at hp
                    · cases hp
                    · rename_i user old new hpp
                      split at hp
                      · cases hp
                      · rename_i i hi
                        split at hp
                        · cases hp
                        · rename_i huser
                          split at hp
                          · rename_i pw
                            split at hp
                            · cases hp
                            · rename_i n hn
                              split at hp
                              · rename_i e he
                                cases hp
                                refine ⟨i, n, e, v, user, pw, hi, hn, hname, rfl, ⟨data, l, hd, hl, parts_iff.mp hpp⟩, ?_, rfl, he⟩
                                intro u hu
                                refine Classical.byContradiction fun hcon => huser ⟨by simp [hu], ?_⟩
                                intro heq
                                rw [hu] at heq
                                exact hcon (by simpa [dnOctets] using heq)
                              · cases hp
                          · cases hp
                · cases hx; exact absurd rfl hne
                · cases hx
              · cases hx
          · cases hx
        · split at hx <;> cases hx

/-- The request that changes a password. -/
def request (t : UInt8) (v : Bytes) : Obj := .extRequest t (.bytes (ascii "1.3.6.1.4.1.4203.1.11.1")) (.bytes v)

private theorem handle_eq {env : Env} {luck : Luck} {st : State} {v : Bytes} {cs : Option Controls} {data : Obj}
    (hc : ∀ l ∈ cs, ¬ HasCritical l) (hd : berDecodeMultiple v passwordModifyCtx = .ok [data]) :
    handleExtended env luck st (.bytes (ascii "1.3.6.1.4.1.4203.1.11.1")) (.bytes v) cs =
      match passwordModify env luck st data with
      | .ok h => .ok (h, extRespond 0 .none passwordModifyOid)
      | .error (.ldap c m) => .ok (st.heap, extRespond c m (.bytes (ascii "1.3.6.1.4.1.4203.1.11.1")))
      | .error f => .error f := by
  have hc' : checkControls cs = .ok () := by
    cases cs with
    | none => rfl
    | some l => exact checkEach_ok (hc l rfl)
  unfold handleExtended
  simp only [hc', hd, lift, bind, Except.bind]
  rw [if_pos (by rfl)]
  rfl

private theorem serve_ext {env : Env} {luck : Luck} {st : State} {i : Int} {t : UInt8} {v : Bytes} {cs : Option Controls}
    {h : Tree.Heap} {code : Int} (hi : 0 < i ∧ i < 2 ^ 31) (hf : Fits luck st (request t v) cs) {m : Message} {name : PyVal}
    (hx : handleExtended env luck st (.bytes (ascii "1.3.6.1.4.1.4203.1.11.1")) (.bytes v) cs = .ok (h, extRespond code m name)) :
    ∃ op, serve env luck st (.message (.int i) (request t v) cs) = some ⟨{ st with heap := h }, [(.int i, op.build)]⟩ ∧
      FinalFor (request t v) op ∧ op.code = some code ∧ (∃ m name, op = .extResponse code [] m name none) ∧
      encodes (.int i) op.build = true := by
  have hp := post_extended (env := env) (t := t) hf
  rw [hx] at hp
  obtain ⟨op, h1, h2, h3⟩ := hp
  have h0 : PyVal.int i ≠ .int 0 := by intro h; cases h; omega
  refine ⟨op, ?_, h2, ?_, ?_, encodes_op i op ⟨by omega, hi.2⟩ h3⟩
  · simp only [request, serve, isRequest, if_true, if_neg h0, call, hx, onHeap]
    simp only at h1
    rw [h1]
    simp [final, encodes_op i op ⟨by omega, hi.2⟩ h3]
  · cases h2
    simp only [extRespond, Op.build, Obj.extResponse.injEq, PyVal.int.injEq] at h1
    simp [Op.code, h1.2.1]
  · cases h2
    simp only [extRespond, Op.build, Obj.extResponse.injEq, PyVal.int.injEq, PyVal.bytes.injEq] at h1
    obtain ⟨-, rfl, rfl, -⟩ := h1
    exact ⟨_, _, rfl⟩

/-- Every well-formed password-modify request (one without critical controls) is decided like this: without a bound user
it is refused with `strongAuthRequired` (8); naming somebody else is refused with `insufficientAccessRights` (50); an old
password, or no new one, is refused with `operationsError` (1); nothing changes in these cases.  Otherwise the password of
the bound user is set and the answer is success. -/
theorem decided (env : Env) (luck : Luck) (st : State) (i : Int) (t : UInt8) (v : Bytes) (cs : Option Controls)
    (user old new : Option Bytes) (ha : Asks v user old new) (hi : 0 < i ∧ i < 2 ^ 31) (hf : Fits luck st (request t v) cs)
    (hc : ∀ l ∈ cs, ¬ HasCritical l) (hb : ∀ j, st.bound = some j → ∃ n, st.heap[j]? = some n) :
    ∃ s op code, serve env luck st (.message (.int i) (request t v) cs) = some s ∧ s.sent = [(.int i, op.build)] ∧
      FinalFor (request t v) op ∧
      (op.code = some code ∧ (∃ m name, op = .extResponse code [] m name none) ∧ encodes (.int i) op.build = true) ∧
      ((st.bound = none ∧ code = 8 ∧ s.state = st) ∨
       ∃ j n, st.bound = some j ∧ st.heap[j]? = some n ∧
        ((∃ u, user = some u ∧ u ≠ Utf8.encode n.entry.dn.text ∧ code = 50 ∧ s.state = st) ∨
         ((∀ u, user = some u → u = Utf8.encode n.entry.dn.text) ∧
          (((old ≠ none ∨ new = none) ∧ code = 1 ∧ s.state = st) ∨
           ∃ pw e, old = none ∧ new = some pw ∧ code = 0 ∧
            Password.setPassword env.U env.sha1 env.passwordTextFirst n.entry pw luck.salt = .ok e ∧
            s.state = { st with heap := st.heap.set j { n with entry := e } })))) := by
  obtain ⟨data, l, hd, hl, hp⟩ := ha
  have hx := handle_eq (env := env) (luck := luck) (st := st) hc hd
  have hpp := parts_iff.mpr hp
  cases hbd : st.bound with
  | none =>
    have e : passwordModify env luck st data = .error (.ldap 8 .none) := by simp [passwordModify, hl, hpp, hbd]
    rw [e] at hx
    obtain ⟨op, h1, h2, h3⟩ := serve_ext hi hf hx
    exact ⟨_, op, 8, h1, rfl, h2, h3, .inl ⟨rfl, rfl, rfl⟩⟩
  | some j =>
    obtain ⟨n, hn⟩ := hb j hbd
    have hdn : dnOctets st.heap j = Utf8.encode n.entry.dn.text := by simp [dnOctets, Tree.dnOf, hn]
    by_cases hu : user.isSome ∧ user ≠ some (dnOctets st.heap j)
    · have e : passwordModify env luck st data = .error (.ldap 50 .none) := by simp [passwordModify, hl, hpp, hbd, hu]
      rw [e] at hx
      obtain ⟨op, h1, h2, h3⟩ := serve_ext hi hf hx
      obtain ⟨u, hu1⟩ := Option.isSome_iff_exists.mp hu.1
      refine ⟨_, op, 50, h1, rfl, h2, h3, .inr ⟨j, n, rfl, hn, .inl ⟨u, hu1, ?_, rfl, rfl⟩⟩⟩
      intro he
      exact hu.2 (by rw [hu1, he, hdn])
    · have hu' : ∀ u, user = some u → u = Utf8.encode n.entry.dn.text := by
        intro u he
        refine Classical.byContradiction fun hne => hu ⟨by simp [he], ?_⟩
        intro h
        rw [he, hdn] at h
        exact hne (by simpa using h)
      by_cases ho : old ≠ none ∨ new = none
      · have e : passwordModify env luck st data = .error (.ldap 1 (.text (ascii "Password does not support this case."))) := by
          simp only [passwordModify, hl, hpp, hbd, if_neg hu]
          cases old with
          | some x => rfl
          | none =>
            cases new with
            | none => rfl
            | some y => rcases ho with h | h <;> simp at h
        rw [e] at hx
        obtain ⟨op, h1, h2, h3⟩ := serve_ext hi hf hx
        exact ⟨_, op, 1, h1, rfl, h2, h3, .inr ⟨j, n, rfl, hn, .inr ⟨hu', .inl ⟨ho, rfl, rfl⟩⟩⟩⟩
      · cases hold : old with
        | some x => exact absurd (.inl (by simp [hold])) ho
        | none =>
          cases hnew : new with
          | none => exact absurd (.inr hnew) ho
          | some pw =>
            obtain ⟨e, he, -⟩ := C19.setPassword_attrs env.U env.sha1 env.passwordTextFirst n.entry pw luck.salt
            have e' : passwordModify env luck st data = .ok (st.heap.set j { n with entry := e }) := by
              subst hold hnew
              simp only [passwordModify, hl, hpp, hbd, if_neg hu, hn, he]
            rw [e'] at hx
            obtain ⟨op, h1, h2, h3⟩ := serve_ext hi hf hx
            exact ⟨_, op, 0, h1, rfl, h2, h3, .inr ⟨j, n, rfl, hn, .inr ⟨hu', .inr ⟨pw, e, rfl, rfl, rfl, he, by rw [hbd]⟩⟩⟩⟩

/-- Nobody can change the password of somebody else: if nobody is bound, or the request names an entry other than that of
the bound user, nothing changes - whatever else is in the message. -/
theorem others_refused (env : Env) (luck : Luck) (st : State) (id : PyVal) (t : UInt8) (v : Bytes) (name : PyVal)
    (cs : Option Controls) (s : Served) (user old new : Option Bytes) (ha : Asks v user old new)
    (h : serve env luck st (.message id (.extRequest t name (.bytes v)) cs) = some s)
    (hn : st.bound = none ∨ ∃ i u, st.bound = some i ∧ user = some u ∧ u ≠ Utf8.encode (Tree.dnOf st.heap i).text) :
    s.state = st := by
  refine Classical.byContradiction fun hch => ?_
  obtain ⟨-, i, n, e, w, user', new', hi, -, -, hv, ha', hu, -⟩ := only_own env luck st id t name (.bytes v) cs s h hch
  cases hv
  rcases hn with hn | ⟨j, u, hj, rfl, hne⟩
  · rw [hn] at hi; cases hi
  · rw [hj] at hi; cases hi
    exact hne (hu u (asks_unique ha ha').1.symm)

/-- After a successful change the new password, and up to collisions of the hash only it, lets the user in. -/
theorem new_password_works (env : Env) (h20 : ∀ b, (env.sha1 b).length = 20) (n : Tree.Node) (e : Entry) (pw salt q : Bytes)
    (order : Bool) (h : Password.setPassword env.U env.sha1 env.passwordTextFirst n.entry pw salt = .ok e) :
    e.dn = n.entry.dn ∧
    Password.tryBind env.U env.sha1 order e (.bytes q) = .ok (decide (env.sha1 (q ++ salt) = env.sha1 (pw ++ salt))) := by
  obtain ⟨e', he', hb⟩ := C19.set_then_bind env.U env.sha1 h20 env.passwordTextFirst order n.entry pw salt (.bytes q)
  rw [h] at he'; cases he'
  refine ⟨?_, hb⟩
  obtain ⟨e'', he'', -, -, hdn, -⟩ := C19.setPassword_attrs env.U env.sha1 env.passwordTextFirst n.entry pw salt
  rw [h] at he''; cases he''
  exact hdn

/-! Witnesses. -/

/-- `SEQUENCE { [2] "y" }` and `SEQUENCE { [0] "cn=b,dc=a", [2] "y" }` -/
def anyone : Bytes := [0x30, 3, 0x82, 1, 0x79]
def named : Bytes := [0x30, 14, 0x80, 9] ++ ascii "cn=b,dc=a" ++ [0x82, 1, 0x79]

/-- The parts found in a request. -/
def probe (b : Bytes) : List (Cls × Bytes) :=
  match berDecodeMultiple b passwordModifyCtx with
  | .ok [.seq _ _ l] => l.map fun x => match x with | .oct c _ v => (c, v) | _ => (.null, [])
  | _ => []

private theorem probe_spec {b : Bytes} {l : List (Cls × Bytes)} (h : probe b = l) (hn : l ≠ []) (hl : ∀ x ∈ l, x.1 ≠ .null) :
    ∃ data ts, berDecodeMultiple b passwordModifyCtx = .ok [data] ∧ ts.length = l.length ∧
      data.data? = some ((l.zip ts).map fun p => Obj.oct p.1.1 p.2 p.1.2) := by
  unfold probe at h
  split at h
  · rename_i c t d heq
    have key : ∀ (d : List Obj) (l : List (Cls × Bytes)), (d.map fun x => match x with | .oct c _ v => (c, v) | _ => (.null, [])) = l →
        (∀ x ∈ l, x.1 ≠ .null) → ∃ ts : List UInt8, ts.length = l.length ∧
          d = ((l.zip ts).map fun p => Obj.oct p.1.1 p.2 p.1.2) := by
      intro d
      induction d with
      | nil => intro l h _; subst h; exact ⟨[], rfl, rfl⟩
      | cons x d ih =>
        intro l h hl
        cases l with
        | nil => simp at h
        | cons y l =>
          simp only [List.map_cons, List.cons.injEq] at h
          obtain ⟨ts, h1, h2⟩ := ih l h.2 (fun x hx => hl x (List.mem_cons_of_mem _ hx))
          have hy := hl y List.mem_cons_self
          split at h
          · rename_i c t v
            refine ⟨t :: ts, by simp [h1], ?_⟩
            simp [← h.1, ← h2]
          · exact absurd (by rw [← h.1]) hy
    obtain ⟨ts, h1, h2⟩ := key d l h hl
    exact ⟨_, ts, heq, h1, by simp [Obj.data?, ← h2]⟩
  · exact absurd h.symm hn

/-- The requests of the examples. -/
example : Asks anyone none none (some [0x79]) ∧ Asks named (some (ascii "cn=b,dc=a")) none (some [0x79]) := by
  refine ⟨?_, ?_⟩
  · obtain ⟨data, ts, h1, h2, h3⟩ := probe_spec (b := anyone) (l := [(.pmNew, [0x79])]) (by decide +kernel) (by simp) (by simp)
    match ts, h2 with
    | [t], _ => exact ⟨data, _, h1, h3, .new _ _ .nil⟩
  · obtain ⟨data, ts, h1, h2, h3⟩ := probe_spec (b := named) (l := [(.pmUser, ascii "cn=b,dc=a"), (.pmNew, [0x79])])
      (by decide +kernel) (by simp) (by simp)
    match ts, h2 with
    | [t, t'], _ => exact ⟨data, _, h1, h3, .user _ _ (.new _ _ .nil)⟩

/-- Changing the password, named or not, and using the new one; the old one is refused; without a bind nothing happens. -/
example :
    C42.boundAfter ⟨C42.heap, none⟩ [C42.bindAs [0x78], request 0x57 anyone, .bind 0x40 (.int 3) (.bytes []) (.simple (.bytes [])),
      C42.bindAs [0x79]] = some 1 ∧
    C42.boundAfter ⟨C42.heap, none⟩ [C42.bindAs [0x78], request 0x57 named, .bind 0x40 (.int 3) (.bytes []) (.simple (.bytes [])),
      C42.bindAs [0x78]] = none ∧
    C42.boundAfter ⟨C42.heap, none⟩ [request 0x57 named, C42.bindAs [0x79]] = none := by decide +kernel

/-- The remaining hypotheses of `decided` (and those of `C42.bind_outcome`) hold there. -/
example : Fits C40.luck ⟨C42.heap, some 1⟩ (request 0x57 named) none ∧ Fits C40.luck ⟨C42.heap, none⟩ (C42.bindAs [0x78]) none ∧
    ∃ n, C42.heap[1]? = some n := by
  have hd : ∀ n ∈ C42.heap, Fit (Utf8.encode n.entry.dn.text) := by
    intro n hn
    simp only [C42.heap, List.mem_cons, List.not_mem_nil, or_false] at hn
    rcases hn with rfl | rfl <;> unfold Fit <;> decide +kernel
  refine ⟨⟨?_, hd, ?_, ?_, ?_⟩, ⟨?_, hd, ?_, ?_, ?_⟩, _, rfl⟩
  · intro e; simp [Fit, C40.luck]
  · intro cs hcs; cases hcs
  · intro t n v h; cases h; unfold Fit; decide +kernel
  · intro t v d a h; cases h
  · intro e; simp [Fit, C40.luck]
  · intro cs hcs; cases hcs
  · intro t n v h; cases h
  · intro t v d a h; cases h; unfold Fit; decide +kernel

/-- The violation of the title: a modify request on an unauthenticated connection changes the password of anybody. -/
theorem modify_unprotected :
    let mods := [Obj.seq .sequence 0x30 [.int .enumerated 0x0A 2,
      .seq .sequence 0x30 [.oct .octetString 4 (ascii "userPassword"), .seq .set 0x31 [.oct .octetString 4 [0x79]]]]]
    ((serve C40.env C40.luck ⟨C42.heap, none⟩ (.message (.int 7) (.modifyRequest 0x46 (.bytes (ascii "cn=b,dc=a")) mods) none)).map
      fun s => C42.boundAfter s.state [C42.bindAs [0x79]]) = some (some 1) := by decide +kernel

end Verif.C43
