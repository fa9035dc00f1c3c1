import Verif.Props.C19
import Verif.Props.C41
/-
C42  A connection is authenticated only as the user of its last successful bind.

Proved: exactly which binds succeed and as whom (`bind_outcome`), that nothing else changes the bound user
(`only_binds`), and that after any history the bound user is that of the last successful bind, or nobody
(`last_successful_bind_partial`).  The last clause of the claim is false: a failed bind leaves the connection bound as it
was before (`failed_bind_keeps_user`).
-/
namespace Verif.C42
open Verif.Ldap Verif.Spec Verif.Server Verif.C41

/-- The octets presented as password: a simple bind; or by accident an integer in its place, or (`bytes(tuple)`) SASL
credentials made of two small integers. -/
inductive Presents : Auth → Bytes → Prop where
  | simple (pw) : Presents (.simple (.bytes pw)) pw
  | number (n) : Presents (.simple (.int n)) (decimal n)
  | sasl (a b : Int) : 0 ≤ a ∧ a < 256 → 0 ≤ b ∧ b < 256 → Presents (.sasl (.int a) (.int b)) [UInt8.ofNat a.toNat, UInt8.ofNat b.toNat]

/-- A bind request that ought to succeed, and the user it authenticates: version 3, no critical control, and either the
empty name, or a name that leads to an entry and a password that the entry accepts (C19). -/
inductive Verified (env : Env) (st : State) : Obj → Option Controls → Option Nat → Prop where
  | anonymous {t a cs} : (∀ l ∈ cs, ¬ HasCritical l) → Verified env st (.bind t (.int 3) (.bytes []) a) cs none
  | user {t b s d i n a pw cs} : (∀ l ∈ cs, ¬ HasCritical l) → b ≠ [] → Utf8.decode b = .ok s → Dn.Dn.parse env.U s = .ok d →
      Tree.lookup env.U st.heap 0 d = .ok i → st.heap[i]? = some n → Presents a pw →
      Password.tryBind env.U env.sha1 env.passwordTextFirst n.entry (.bytes pw) = .ok true →
      Verified env st (.bind t (.int 3) (.bytes b) a) cs (some i)

private theorem presents_iff {a : Auth} {pw : Bytes} : authBytes a = .ok pw ↔ Presents a pw := by
  constructor
  · intro h
    unfold authBytes at h
    split at h
    · rename_i v
      cases v with
      | bytes b => cases h; exact .simple _
      | int n => cases h; exact .number _
      | none => cases h
    · split at h
      · rename_i hc; cases h; exact .sasl _ _ ⟨hc.1, hc.2.1⟩ hc.2.2
      · cases h
    · cases h
  · intro h
    cases h with
    | simple => rfl
    | number => rfl
    | sasl a b ha hb => simp [authBytes, ha, hb]

private theorem check_none {cs : Option Controls} : checkControls cs = .ok () ↔ ∀ l ∈ cs, ¬ HasCritical l := by
  cases cs with
  | none => simp [checkControls]
  | some l =>
    simp only [checkControls, Option.mem_def, Option.some.injEq, forall_eq']
    constructor
    · intro h hc
      obtain ⟨_, _, _, _, _, he⟩ := checkEach_error hc
      rw [h] at he; cases he
    · exact checkEach_ok

private theorem lookup_node {U : Unicode} {h : Tree.Heap} {i j : Nat} {d : Dn.Dn} (hl : Tree.lookup U h i d = .ok j) :
    ∃ n, h[j]? = some n := by
  unfold Tree.lookup at hl
  generalize h.length + 1 = fuel at hl
  induction fuel generalizing i with
  | zero => cases hl
  | succ fuel ih =>
    unfold Tree.lookupLoop at hl
    split at hl
    · cases hl
    · rename_i n hn
      split at hl
      · cases hl
      · split at hl
        · cases hl; exact ⟨n, hn⟩
        · split at hl
          · exact ih hl
          · cases hl

private theorem handleBind_ok {env : Env} {st : State} {t : UInt8} {v dn : PyVal} {a : Auth} {cs : Option Controls}
    {u : Option Nat} {r : Obj} (h : handleBind env st v dn a cs = .ok (u, r)) :
    Verified env st (.bind t v dn a) cs u ∧ ∃ m, r = (Op.bindResponse 0 m [] none).build := by
  unfold handleBind at h
  cases hv : checkVersion v with
  | error f => simp [hv, bind, Except.bind] at h
  | ok x =>
    cases hc : checkControls cs with
    | error f => simp [hv, hc, bind, Except.bind] at h
    | ok y =>
      have hv3 : v = .int 3 := by
        unfold checkVersion at hv
        split at hv
        · assumption
        · split at hv <;> cases hv
      subst hv3
      have hc' := check_none.mp hc
      simp only [hv, hc, bind, Except.bind] at h
      split at h
      · rename_i hd
        subst hd
        cases h
        exact ⟨.anonymous hc', [], rfl⟩
      · rename_i hd
        cases hdn : readDn env.U dn with
        | error e => simp [hdn, lift] at h
        | ok d =>
          simp only [hdn, lift] at h
          split at h
          · cases h
          · cases h
          · rename_i i hl
            cases ha : authBytes a with
            | error e => simp [ha] at h
            | ok pw =>
              simp only [ha] at h
              cases ht : Password.tryBind env.U env.sha1 env.passwordTextFirst (entryAt st.heap i) (.bytes pw) with
              | error e => simp [ht] at h
              | ok b =>
                simp only [ht] at h
                split at h
                · rename_i hb
                  subst hb
                  cases h
                  obtain ⟨n, hn⟩ := lookup_node hl
                  cases dn with
                  | int _ => simp [readDn] at hdn
                  | none => simp [readDn] at hdn
                  | bytes b =>
                    replace hdn : (Utf8.decode b >>= fun s => Dn.Dn.parse env.U s) = .ok d := hdn
                    cases hs : Utf8.decode b with
                    | error e => rw [hs] at hdn; cases hdn
                    | ok s =>
                      rw [hs] at hdn
                      refine ⟨.user hc' (fun hb => hd (by rw [hb])) hs hdn hl hn (presents_iff.mp ha) ?_, dnOctets st.heap i, rfl⟩
                      rw [← ht]; simp [entryAt, hn]
                · cases h

private theorem handleBind_verified {env : Env} {st : State} {t : UInt8} {v dn : PyVal} {a : Auth} {cs : Option Controls}
    {u : Option Nat} (h : Verified env st (.bind t v dn a) cs u) : ∃ r, handleBind env st v dn a cs = .ok (u, r) := by
  unfold handleBind
  cases h with
  | anonymous hc => simp [checkVersion, check_none.mpr hc, bind, Except.bind, pure, Except.pure]
  | user hc hb hs hd hl hn ha ht =>
    rename_i b s d i n pw
    have h1 : ¬ PyVal.bytes b = PyVal.bytes [] := by intro h; cases h; exact hb rfl
    have h2 : readDn env.U (.bytes b) = .ok d := by simp [readDn, hs, hd, bind, Except.bind]
    have h3 : entryAt st.heap i = n.entry := by simp [entryAt, hn]
    simp [checkVersion, check_none.mpr hc, bind, Except.bind, pure, Except.pure, h1, h2, lift, hl, presents_iff.mpr ha,
      h3, ht]

/-- No fault is reported with the code of success. -/
private theorem handleBind_code {env : Env} {luck : Luck} {st : State} {v dn : PyVal} {a : Auth} {cs : Option Controls}
    {f : Fault} (h : handleBind env st v dn a cs = .error f) : (f.report luck).1 ≠ 0 := by
  have hpy : ∀ e, ((Fault.py e).report luck).1 ≠ 0 := by intro e; cases e <;> simp [Fault.report, ldapCode]
  unfold handleBind at h
  cases hv : checkVersion v with
  | error g =>
    simp only [hv, bind, Except.bind] at h
    cases h
    rw [checkVersion_code hv]; decide
  | ok x =>
    cases hc : checkControls cs with
    | error g =>
      simp only [hv, hc, bind, Except.bind] at h
      cases h
      cases cs with
      | none => cases hc
      | some l =>
        by_cases hcr : HasCritical l
        · obtain ⟨ty, _, _, _, _, he⟩ := checkEach_error hcr
          simp only [checkControls] at hc
          rw [he] at hc; cases hc
          rcases criticalFault_code luck ty with h | h <;> rw [h] <;> decide
        · simp only [checkControls, checkEach_ok hcr] at hc; cases hc
    | ok y =>
      simp only [hv, hc, bind, Except.bind] at h
      split at h
      · cases h
      · cases hdn : readDn env.U dn with
        | error e => simp only [hdn, lift] at h; cases h; exact hpy e
        | ok d =>
          simp only [hdn, lift] at h
          split at h
          · cases h; simp [Fault.report]
          · cases h; exact hpy _
          · rename_i i hl
            cases ha : authBytes a with
            | error e => simp only [ha] at h; cases h; exact hpy e
            | ok pw =>
              simp only [ha] at h
              cases ht : Password.tryBind env.U env.sha1 env.passwordTextFirst (entryAt st.heap i) (.bytes pw) with
              | error e => simp only [ht] at h; cases h; exact hpy e
              | ok b =>
                simp only [ht] at h
                split at h
                · cases h
                · cases h; simp [Fault.report]

/-- Every bind request is answered; it is answered with success exactly if it is a verified one, and then the connection
is bound as its user; otherwise nothing changes. -/
theorem bind_outcome (env : Env) (luck : Luck) (st : State) (i : Int) (t : UInt8) (v dn : PyVal) (a : Auth)
    (cs : Option Controls) (hi : 0 < i ∧ i < 2 ^ 31) (hf : Fits luck st (.bind t v dn a) cs) :
    ∃ s code m e, serve env luck st (.message (.int i) (.bind t v dn a) cs) = some s ∧
      s.sent = [(.int i, (Op.bindResponse code m e none).build)] ∧ s.state.heap = st.heap ∧
      ((code = 0 ∧ Verified env st (.bind t v dn a) cs s.state.bound) ∨
        (code ≠ 0 ∧ s.state.bound = st.bound ∧ ∀ u, ¬ Verified env st (.bind t v dn a) cs u)) := by
  cases hb : handleBind env st v dn a cs with
  | error f =>
    have hcall : call env luck st (.int i) (.bind t v dn a) cs = ⟨st, [], .error f⟩ := by simp [call, hb]
    have hp := post_bind (env := env) hf
    rw [hb] at hp
    obtain ⟨s, op, h1, h2, h3, h4, h5⟩ := serve_error hi .bind hcall hp
    cases h4
    rename_i c m e
    refine ⟨s, c, m, e, h1, h3, by rw [h2], .inr ⟨?_, by rw [h2], fun u hu => ?_⟩⟩
    · simp only [Op.code, Option.some.injEq] at h5
      rw [h5]; exact handleBind_code hb
    · obtain ⟨r, hr⟩ := handleBind_verified hu
      rw [hb] at hr; cases hr
  | ok x =>
    obtain ⟨u, r⟩ := x
    have hp := post_bind (env := env) hf
    rw [hb] at hp
    obtain ⟨hver, m, rfl⟩ := handleBind_ok (t := t) hb
    obtain ⟨op, h1, h2, h3⟩ := hp
    simp only at h1
    have h0 : PyVal.int i ≠ .int 0 := by intro h; cases h; omega
    refine ⟨⟨{ st with bound := u }, [(.int i, (Op.bindResponse 0 m [] none).build)]⟩, 0, m, [], ?_, rfl, rfl, .inl ⟨rfl, hver⟩⟩
    simp only [serve, isRequest, if_true, if_neg h0, call, hb]
    rw [h1]
    simp [final, encodes_op i op ⟨by omega, hi.2⟩ h3]

/-- Whoever is bound was let in by their entry: some value stored as `userPassword` vouches for the password (C19). -/
theorem verified_password (env : Env) (h20 : ∀ b, (env.sha1 b).length = 20) (st : State) (request : Obj) (cs : Option Controls)
    (i : Nat) (h : Verified env st request cs (some i)) :
    ∃ t v dn a pw n, request = .bind t v dn a ∧ Presents a pw ∧ st.heap[i]? = some n ∧
      ∃ k, (k = Password.textKey ∨ k = Password.bytesKey) ∧ ∃ vs, n.entry.get env.U k = .ok (some vs) ∧
        ∃ x ∈ vs, C19.Vouches env.sha1 pw x.toBytes := by
  cases h with
  | user _ _ _ _ _ hn ha ht =>
    exact ⟨_, _, _, _, _, _, rfl, ha, hn, (C19.bind_iff _ _ h20 _ _ _ _ ht).mp rfl⟩

/-- Whatever the message, the bound user changes only by a verified bind, to the user of that bind. -/
theorem only_binds (env : Env) (luck : Luck) (st : State) (id : PyVal) (request : Obj) (cs : Option Controls) (s : Served)
    (h : serve env luck st (.message id request cs) = some s) :
    s.state.bound = st.bound ∨ Verified env st request cs s.state.bound := by
  simp only [serve] at h
  split at h
  · split at h
    · cases h; exact .inl rfl
    · cases h
      simp only [call]
      split
      · rename_i t v d a _
        cases hb : handleBind env st v d a cs with
        | error f => exact .inl rfl
        | ok x => exact .inr (handleBind_ok hb).1
      all_goals first | exact .inl rfl | skip
      all_goals first | (split <;> exact .inl rfl) | skip
      all_goals first | (unfold onHeap; split <;> exact .inl rfl)
  · cases h

/-- One message of a connection: the state before, the request and its controls, and the state after. -/
structure Step where
  before : State
  request : Obj
  controls : Option Controls
  after : State

/-- The messages of a connection, one after the other. -/
inductive Trace (env : Env) : State → List Step → State → Prop where
  | nil (st) : Trace env st [] st
  | snoc {st l st' luck id request controls s} : Trace env st l st' →
      serve env luck st' (.message id request controls) = some s →
      Trace env st (l ++ [⟨st', request, controls, s.state⟩]) s.state

/-- A bind that was verified and took effect. -/
def Successful (env : Env) (x : Step) : Prop :=
  Verified env x.before x.request x.controls x.after.bound

/-- After any history of a connection that starts with nobody bound: either no bind was successful and nobody is bound, or
the bound user is the one authenticated by the last successful bind. -/
theorem last_successful_bind_partial (env : Env) (st st' : State) (l : List Step) (h0 : st.bound = none) (h : Trace env st l st') :
    (st'.bound = none ∧ ∀ x ∈ l, ¬ Successful env x) ∨
      ∃ pre x post, l = pre ++ x :: post ∧ Successful env x ∧ st'.bound = x.after.bound ∧ ∀ y ∈ post, ¬ Successful env y := by
  induction h with
  | nil => exact .inl ⟨h0, by simp⟩
  | snoc ht hs ih =>
    rename_i l st'' luck id request controls s
    by_cases hsuc : Successful env ⟨st'', request, controls, s.state⟩
    · exact .inr ⟨l, _, [], rfl, hsuc, rfl, by simp⟩
    · have hb : s.state.bound = st''.bound := (only_binds env luck st'' id request controls s hs).resolve_right hsuc
      rcases ih with ⟨h1, h2⟩ | ⟨pre, x, post, rfl, h1, h2, h3⟩
      · refine .inl ⟨by rw [hb, h1], fun y hy => ?_⟩
        rcases List.mem_append.mp hy with hy | hy
        · exact h2 y hy
        · simp only [List.mem_singleton] at hy; rw [hy]; exact hsuc
      · refine .inr ⟨pre, x, post ++ [⟨st'', request, controls, s.state⟩], by simp, h1, by rw [hb, h2], fun y hy => ?_⟩
        rcases List.mem_append.mp hy with hy | hy
        · exact h3 y hy
        · simp only [List.mem_singleton] at hy; rw [hy]; exact hsuc

/-! Witnesses. -/

/-- `dc=a` with `cn=b` below it, whose password is "x". -/
def heap : Tree.Heap :=
  [⟨⟨[[⟨['d','c'], ['a']⟩]], []⟩, none, [(['c','n','=','b'], 1)]⟩,
   ⟨⟨[[⟨['c','n'], ['b']⟩], [⟨['d','c'], ['a']⟩]], [(Password.bytesKey, [.bytes [0x78]])]⟩, some 0, []⟩]

/-- A simple bind as `cn=b,dc=a`. -/
def bindAs (pw : Bytes) : Obj := .bind 0x40 (.int 3) (.bytes (ascii "cn=b,dc=a")) (.simple (.bytes pw))

/-- The bound user after a list of messages. -/
def boundAfter (st : State) (l : List Obj) : Option Nat :=
  (serveAll C40.env st (l.map fun r => (C40.luck, .message (.int 7) r none))).1.bound

/-- The right password binds, the wrong one and the wrong name do not, the empty name unbinds. -/
example : boundAfter ⟨heap, none⟩ [bindAs [0x78]] = some 1 ∧ boundAfter ⟨heap, none⟩ [bindAs [0x79]] = none ∧
    boundAfter ⟨heap, none⟩ [bindAs [0x78], .bind 0x40 (.int 3) (.bytes []) (.simple (.bytes [])) ] = none := by
  decide +kernel

/-- The hypotheses of `Verified.user` hold. -/
example : Verified C40.env ⟨heap, none⟩ (bindAs [0x78]) none (some 1) := by
  have h : handleBind C40.env ⟨heap, none⟩ (.int 3) (.bytes (ascii "cn=b,dc=a")) (.simple (.bytes [0x78])) none =
      .ok (some 1, .result .bindResponse 0x41 (.int 0) (.bytes (dnOctets heap 1)) (.bytes []) .none) := by
    have hd : readDn C40.env.U (.bytes (ascii "cn=b,dc=a")) = .ok (Tree.dnOf heap 1) := by decide +kernel
    have hl : Tree.lookup C40.env.U heap 0 (Tree.dnOf heap 1) = .ok 1 := by decide +kernel
    have ht : Password.tryBind C40.env.U C40.env.sha1 C40.env.passwordTextFirst (entryAt heap 1) (.bytes [0x78]) = .ok true := by
      decide +kernel
    have hn : ¬ PyVal.bytes (ascii "cn=b,dc=a") = PyVal.bytes [] := by decide +kernel
    simp [handleBind, checkVersion, checkControls, hd, hl, hn, lift, authBytes, toBytes, ht, bind, Except.bind, pure, Except.pure]
  exact (handleBind_ok h).1

/-- The violation: after a failed bind the connection is still bound as before (RFC 4511 4.2.1 wants it anonymous). -/
theorem failed_bind_keeps_user : boundAfter ⟨heap, none⟩ [bindAs [0x78], bindAs [0x79]] = some 1 ∧
    C40.codes (serve C40.env C40.luck ⟨heap, some 1⟩ (.message (.int 7) (bindAs [0x79]) none)) =
      some [(.int 7, some (.int 49))] := by decide +kernel

/-- SASL credentials of two integers are taken for a password. -/
theorem sasl_as_password :
    boundAfter ⟨heap.set 1 ⟨⟨[[⟨['c','n'], ['b']⟩], [⟨['d','c'], ['a']⟩]], [(Password.bytesKey, [.bytes [1, 2]])]⟩, some 0, []⟩, none⟩
      [.bind 0x40 (.int 3) (.bytes (ascii "cn=b,dc=a")) (.sasl (.int 1) (.int 2))] = some 1 := by decide +kernel

end Verif.C42
