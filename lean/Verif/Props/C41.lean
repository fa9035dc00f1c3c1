import Verif.Props.C40
/-
C41  Unrecognised critical controls block the operation.

The server recognises no control, so every critical control is an unrecognised one.  `critical_refused` needs a version 3 for
bind requests and octet strings as control types: otherwise the answer is `protocolError` (`bad_version_first`,
`bad_type`); even then the operation is not performed (`critical_blocks`).
-/
namespace Verif.C41
open Verif.Ldap Verif.Spec Verif.Server

abbrev Controls := List (PyVal × PyVal × PyVal)

/-- Some control is marked critical. -/
def HasCritical (cs : Controls) : Prop := ∃ ty crit val, (ty, crit, val) ∈ cs ∧ crit.truthy = true

theorem checkEach_error {cs : Controls} (h : HasCritical cs) :
    ∃ ty crit val, (ty, crit, val) ∈ cs ∧ crit.truthy = true ∧ checkEach cs = .error (criticalFault ty) := by
  obtain ⟨ty, crit, val, hm, hc⟩ := h
  induction cs with
  | nil => cases hm
  | cons c cs ih =>
    obtain ⟨ty', crit', val'⟩ := c
    by_cases hc' : crit'.truthy = true
    · exact ⟨ty', crit', val', List.mem_cons_self, hc', by simp [checkEach, hc']⟩
    · rcases List.mem_cons.mp hm with h | h
      · cases h; exact absurd hc hc'
      · obtain ⟨a, b, c, h1, h2, h3⟩ := ih h
        exact ⟨a, b, c, List.mem_cons_of_mem _ h1, h2, by simp [checkEach, hc', h3]⟩

theorem checkEach_ok {cs : Controls} (h : ¬ HasCritical cs) : checkEach cs = .ok () := by
  induction cs with
  | nil => rfl
  | cons c cs ih =>
    obtain ⟨ty, crit, val⟩ := c
    have hc : ¬ crit.truthy = true := fun hc => h ⟨ty, crit, val, List.mem_cons_self, hc⟩
    simp only [checkEach, if_neg hc]
    exact ih fun ⟨a, b, c, h1, h2⟩ => h ⟨a, b, c, List.mem_cons_of_mem _ h1, h2⟩

theorem call_blocked {env : Env} {luck : Luck} {st : State} {id : PyVal} {request : Obj}
    {controls : Option Controls} {f : Fault} (hr : Answerable request) (hc : checkControls controls = .error f) :
    ∃ f', call env luck st id request controls = ⟨st, [], .error f'⟩ ∧
      (f' = f ∨ ∃ t v d a, request = .bind t v d a ∧ checkVersion v = .error f') := by
  cases hr with
  | bind =>
    rename_i t v d a
    cases hv : checkVersion v with
    | ok u => exact ⟨f, by simp [call, handleBind, hv, hc, bind, Except.bind], .inl rfl⟩
    | error f' => exact ⟨f', by simp [call, handleBind, hv, bind, Except.bind], .inr ⟨t, v, d, a, rfl, hv⟩⟩
  | search => exact ⟨f, by simp [call, handleSearch, hc, bind, Except.bind], .inl rfl⟩
  | modify => exact ⟨f, by simp [call, handleModify, modifyTarget, hc, bind, Except.bind], .inl rfl⟩
  | add => exact ⟨f, by simp [call, onHeap, handleAdd, hc, bind, Except.bind], .inl rfl⟩
  | delete => exact ⟨f, by simp [call, onHeap, handleDelete, hc, bind, Except.bind], .inl rfl⟩
  | modifyDN => exact ⟨f, by simp [call, handleModifyDN, modifyDNTarget, hc, bind, Except.bind], .inl rfl⟩
  | compare => exact ⟨f, by simp [call, handleCompare, hc, bind, Except.bind], .inl rfl⟩
  | extended => exact ⟨f, by simp [call, onHeap, handleExtended, hc, bind, Except.bind], .inl rfl⟩

theorem call_congr {env : Env} {luck : Luck} {st : State} {id : PyVal} {request : Obj} {c c' : Option Controls}
    (h : checkControls c = checkControls c') : call env luck st id request c = call env luck st id request c' := by
  unfold call
  simp only [handleBind, handleSearch, handleModify, modifyTarget, handleAdd, handleDelete, handleModifyDN,
    modifyDNTarget, handleCompare, handleExtended, h]

theorem failWith_code {request : Obj} (hr : Answerable request) {code : Int} {m : Message} {op : Op}
    (h : failWith request code m = op.build) (hf : FinalFor request op) : op.code = some code := by
  cases hr <;> cases hf <;> simp [failWith, respond, extRespond, Op.build, ResultKind.cls] at h <;>
    simp [Op.code, h]

theorem serve_error {env : Env} {luck : Luck} {st : State} {i : Int} {request : Obj} {controls : Option Controls}
    {f : Fault} (hi : 0 < i ∧ i < 2 ^ 31) (hr : Answerable request)
    (h : call env luck st (.int i) request controls = ⟨st, [], .error f⟩) (hs : Small luck f) :
    ∃ s op, serve env luck st (.message (.int i) request controls) = some s ∧ s.state = st ∧
      s.sent = [(.int i, op.build)] ∧ FinalFor request op ∧ op.code = some (f.report luck).1 := by
  obtain ⟨b, h1, h2, h3⟩ := hs
  obtain ⟨op, h4, h5, h6⟩ := answer_failWith hr h1 h2 h3
  have h0 : PyVal.int i ≠ .int 0 := by intro h; cases h; omega
  refine ⟨⟨st, [(.int i, op.build)]⟩, op, ?_, rfl, rfl, h5, failWith_code hr h4 h5⟩
  simp only [serve, Answerable.isRequest hr, if_true, if_neg h0, h]
  simp [h4, final, encodes_op i op ⟨by omega, hi.2⟩ h6]

theorem small_controls {luck : Luck} {st : State} {request : Obj} {cs : Controls} {f : Fault}
    (hf : Fits luck st request (some cs)) (h : checkControls (some cs) = .error f) : Small luck f := by
  have := Post.checkControls hf.text hf.controls
  rw [h] at this
  exact this

theorem criticalFault_code (luck : Luck) (ty : PyVal) :
    ((criticalFault ty).report luck).1 = 12 ∨ ((criticalFault ty).report luck).1 = 2 := by
  cases ty <;> simp [criticalFault, Fault.report, ldapCode]

theorem checkVersion_code {luck : Luck} {v : PyVal} {f : Fault} (h : checkVersion v = .error f) :
    (f.report luck).1 = 2 := by
  unfold checkVersion at h
  split at h
  · cases h
  · split at h <;> cases h <;> simp [Fault.report, ldapCode]

/-- A critical control: the operation is not performed - nothing changes, nobody is bound, no entry is sent - and the only
answer is an error. -/
theorem critical_blocks (env : Env) (luck : Luck) (st : State) (i : Int) (request : Obj) (cs : Controls)
    (hi : 0 < i ∧ i < 2 ^ 31) (hr : Answerable request) (hf : Fits luck st request (some cs)) (hc : HasCritical cs) :
    ∃ s op, serve env luck st (.message (.int i) request (some cs)) = some s ∧ s.state = st ∧
      s.sent = [(.int i, op.build)] ∧ FinalFor request op ∧ (op.code = some 12 ∨ op.code = some 2) := by
  obtain ⟨ty, _, _, _, _, he⟩ := checkEach_error hc
  obtain ⟨f, hcall, hf'⟩ := call_blocked (env := env) (luck := luck) (st := st) (id := .int i) hr (controls := some cs) he
  have hsmall : Small luck f ∧ ((f.report luck).1 = 12 ∨ (f.report luck).1 = 2) := by
    rcases hf' with rfl | ⟨t, v, d, a, rfl, hv⟩
    · exact ⟨small_controls hf he, criticalFault_code luck ty⟩
    · have hp := post_bind (env := env) hf
      simp only [handleBind, hv, bind, Except.bind] at hp
      exact ⟨hp, .inr (checkVersion_code hv)⟩
  obtain ⟨s, op, h1, h2, h3, h4, h5⟩ := serve_error hi hr hcall hsmall.1
  exact ⟨s, op, h1, h2, h3, h4, by rw [h5]; simpa using hsmall.2⟩

/-- A critical control with an octet string as type, in a request that is not a bind request of another version: the answer
is `unavailableCriticalExtension` (12, RFC 4511 4.1.11), and nothing is done. -/
theorem critical_refused (env : Env) (luck : Luck) (st : State) (i : Int) (request : Obj) (cs : Controls)
    (hi : 0 < i ∧ i < 2 ^ 31) (hr : Answerable request) (hf : Fits luck st request (some cs)) (hc : HasCritical cs)
    (hv : ∀ t v d a, request = .bind t v d a → v = .int 3) (ht : ∀ c ∈ cs, ∃ b, c.1 = .bytes b) :
    ∃ s op, serve env luck st (.message (.int i) request (some cs)) = some s ∧ s.state = st ∧
      s.sent = [(.int i, op.build)] ∧ FinalFor request op ∧ op.code = some 12 := by
  obtain ⟨ty, _, _, hm, _, he⟩ := checkEach_error hc
  obtain ⟨b, hb⟩ := ht _ hm
  simp only at hb
  subst hb
  obtain ⟨f, hcall, hf'⟩ := call_blocked (env := env) (luck := luck) (st := st) (id := .int i) hr (controls := some cs) he
  have hfe : f = criticalFault (.bytes b) := by
    rcases hf' with rfl | ⟨t, v, d, a, rfl, hv'⟩
    · rfl
    · rw [hv _ _ _ _ rfl] at hv'; simp [checkVersion] at hv'
  subst hfe
  exact serve_error hi hr hcall (small_controls hf he)

/-- Controls none of which is critical are ignored: everything is as without them, whatever the message. -/
theorem noncritical_ignored (env : Env) (luck : Luck) (st : State) (id : PyVal) (request : Obj) (cs : Controls)
    (hc : ¬ HasCritical cs) :
    serve env luck st (.message id request (some cs)) = serve env luck st (.message id request none) := by
  have : call env luck st id request (some cs) = call env luck st id request none := call_congr (checkEach_ok hc)
  simp only [serve, this]

/-! Witnesses. -/

/-- A bind request of another version is refused for its version. -/
theorem bad_version_first :
    C40.codes (serve C40.env C40.luck C40.st (.message (.int 7) (.bind 0x40 (.int 2) (.bytes []) (.simple (.bytes [])))
      (some [(.bytes [0x31], .int 255, .none)]))) = some [(.int 7, some (.int 2))] := by decide +kernel

/-- A critical control whose type is an integer instead of an octet string: the text of the error cannot be built. -/
theorem bad_type :
    C40.codes (serve C40.env C40.luck C40.st (.message (.int 7) (.oct .delRequest 0x4A (ascii "cn=c,cn=b,dc=a"))
      (some [(.int 5, .int 255, .none)]))) = some [(.int 7, some (.int 2))] := by decide +kernel

/-- The hypotheses of `critical_refused` hold for deleting an entry with two controls, the second critical; and the entry
would have been deleted without it. -/
example :
    let request := Obj.oct .delRequest 0x4A (ascii "cn=c,cn=b,dc=a")
    let cs : Controls := [(.bytes [0x31], .int 0, .none), (.bytes [0x32], .int 255, .bytes [1])]
    Answerable request ∧ Fits C40.luck C40.st request (some cs) ∧ HasCritical cs ∧ (∀ c ∈ cs, ∃ b, c.1 = .bytes b) ∧
    C40.codes (serve C40.env C40.luck C40.st (.message (.int 7) request (some cs))) = some [(.int 7, some (.int 12))] ∧
    C40.codes (serve C40.env C40.luck C40.st (.message (.int 7) request (some (cs.take 1)))) =
      some [(.int 7, some (.int 0))] := by
  refine ⟨.delete, ⟨?_, ?_, ?_, ?_, ?_⟩, ⟨_, _, _, List.mem_cons_of_mem _ List.mem_cons_self, by decide⟩, ?_,
    by decide +kernel, by decide +kernel⟩
  · intro e; simp [Fit, C40.luck]
  · intro n hn
    simp only [C40.st, C40.heap, List.mem_cons, List.not_mem_nil, or_false] at hn
    rcases hn with rfl | rfl | rfl <;> unfold Fit <;> decide +kernel
  · intro cs hcs c hc b hb
    cases hcs
    simp only [List.mem_cons, List.not_mem_nil, or_false] at hc
    rcases hc with rfl | rfl <;> cases hb <;> simp [Fit]
  · intro t n v h; cases h
  · intro t v d a h; cases h
  · intro c hc
    simp only [List.mem_cons, List.not_mem_nil, or_false] at hc
    rcases hc with rfl | rfl <;> exact ⟨_, rfl⟩

end Verif.C41
