import Verif.Props.C43
import Verif.Props.C87
/-
C88  What the server says of itself in the root DSE is what it does.

`outside`: a request that names an entry outside the naming context is refused and changes nothing.  `within_partial`: what a
search returns is inside it, unless entries were renamed; the root can be renamed, and then it is not (`root_renamed`).
`versions`, `extensions_unlisted`, `extensions_listed`: the protocol version and the extended operation.  The root DSE is only
given for one spelling of `objectClass` (`respelled`), and whatever attributes were asked for (`unasked`).
-/
namespace Verif.C88
open Verif.Ldap Verif.Spec Verif.Spec.Modify Verif.Server Verif.Tree

/-- The DN that a request is about. -/
inductive About (U : Unicode) (d : Dn.Dn) : Obj → Prop where
  | bind {t v b a} : b ≠ [] → Means U b d → About U d (.bind t v (.bytes b) a)
  | search {t b s de sl tl ty f as} : b ≠ [] ∨ s ≠ .int 0 → Means U b d → About U d (.searchRequest t (.bytes b) s de sl tl ty f as)
  | modify {t b ms} : Means U b d → About U d (.modifyRequest t (.bytes b) ms)
  | add {t b as} : Means U b d → About U d (.addRequest t (.bytes b) as)
  | delete {t b} : Means U b d → About U d (.oct .delRequest t b)
  | modifyDN {t b r de s} : Means U b d → About U d (.modifyDN t (.bytes b) r de s)
  | compare {t b a} : Means U b d → About U d (.compare t (.bytes b) a)

/-- A response that reports an error. -/
def Refuses (o : Obj) : Prop := ∃ k tag code m e cr, o = .result k tag (.int code) m e cr ∧ code ≠ 0 ∧ code ≠ 5 ∧ code ≠ 6

/-- A fault that is reported as an error. -/
def Bad (luck : Luck) (f : Fault) : Prop := (f.report luck).1 ≠ 0 ∧ (f.report luck).1 ≠ 5 ∧ (f.report luck).1 ≠ 6

theorem bad_py (luck : Luck) (e : PyErr) : Bad luck (.py e) := by
  unfold Bad
  cases e <;> simp [Fault.report, ldapCode]

theorem bad_controls {luck : Luck} {cs : Option (List (PyVal × PyVal × PyVal))} {f : Fault} (h : checkControls cs = .error f) : Bad luck f := by
  cases cs with
  | none => cases h
  | some cs =>
    simp only [checkControls] at h
    induction cs with
    | nil => cases h
    | cons c cs ih =>
      simp only [checkEach] at h
      split at h
      · cases h
        unfold criticalFault
        split
        · simp [Bad, Fault.report]
        · exact bad_py _ _
      · exact ih h

theorem lookup_outside {U : Unicode} {h : Heap} {n : Node} {d : Dn.Dn} (hn : h[0]? = some n) (ho : ¬ foldDn U n.entry.dn <:+ foldDn U d) :
    lookup U h 0 d = .error .noSuchObject := by
  have : Dn.Dn.contains U n.entry.dn d = false := by
    cases hc : Dn.Dn.contains U n.entry.dn d with
    | false => rfl
    | true => exact absurd ((C11.contains_iff_suffix U _ _).mp hc) ho
  simp [lookup, lookupLoop, hn, this]

theorem readDn_means {U : Unicode} {b : Bytes} {d : Dn.Dn} (h : Means U b d) : readDn U (.bytes b) = .ok d :=
  C87.readName_means.mpr h

theorem final_refuses {id : PyVal} {o : Obj} (h : Refuses o) : ∀ x ∈ final id o, Refuses x.2 := by
  unfold final
  split
  · intro x hx; rw [List.mem_singleton.mp hx]; exact h
  · nofun

theorem fail_refuses {U : Unicode} {d : Dn.Dn} {request : Obj} (ha : About U d request) {code : Int} {m : Message}
    (h : code ≠ 0 ∧ code ≠ 5 ∧ code ≠ 6) : Refuses (failWith request code m) := by
  cases ha <;> exact ⟨_, _, _, _, _, _, rfl, h⟩

/-- A handler that does nothing but refuse. -/
def Refusing (luck : Luck) (st : State) (request : Obj) (dn : Done) : Prop :=
  dn.state = st ∧ dn.sent = [] ∧ ((∃ f, dn.result = .error f ∧ Bad luck f) ∨ ∃ r, dn.result = .ok (some r) ∧ Refuses r)

theorem refusing (env : Env) (luck : Luck) (st : State) (n : Node) (hn : st.heap[0]? = some n) (d : Dn.Dn)
    (ho : ¬ foldDn env.U n.entry.dn <:+ foldDn env.U d) (id : PyVal) (request : Obj) (ha : About env.U d request)
    (cs : Option (List (PyVal × PyVal × PyVal))) : Refusing luck st request (call env luck st id request cs) := by
  have hl := lookup_outside hn ho
  have up : ¬ foldDn env.U n.entry.dn <:+ foldDn env.U d.tail := by
    intro h
    refine ho (h.trans ?_)
    cases d with
    | nil => exact List.suffix_rfl
    | cons r d => exact List.suffix_cons _ _
  have hlt := lookup_outside hn up
  cases hcs : checkControls cs with
  | error f =>
    have hb := bad_controls (luck := luck) hcs
    cases ha with
    | bind hb' hm =>
      rename_i t v b a
      have : ∃ f, handleBind env st v (.bytes b) a cs = .error f ∧ Bad luck f := by
        unfold handleBind
        simp only [bind, Except.bind]
        cases hv : checkVersion v with
        | error g =>
          refine ⟨g, rfl, ?_⟩
          unfold checkVersion at hv
          split at hv
          · cases hv
          · split at hv <;> cases hv
            · simp [Bad, Fault.report]
            · exact bad_py _ _
        | ok _ => exact ⟨f, by rw [hcs], hb⟩
      obtain ⟨g, hg, hgb⟩ := this
      simp only [call, hg]
      exact ⟨rfl, rfl, .inl ⟨g, rfl, hgb⟩⟩
    | search _ _ => simp only [call, handleSearch, hcs, bind, Except.bind]; exact ⟨rfl, rfl, .inl ⟨f, rfl, hb⟩⟩
    | modify _ => simp only [call, handleModify, modifyTarget, hcs, bind, Except.bind]; exact ⟨rfl, rfl, .inl ⟨f, rfl, hb⟩⟩
    | add _ => simp only [call, handleAdd, hcs, bind, Except.bind, onHeap]; exact ⟨rfl, rfl, .inl ⟨f, rfl, hb⟩⟩
    | delete _ => simp only [call, handleDelete, hcs, bind, Except.bind, onHeap]; exact ⟨rfl, rfl, .inl ⟨f, rfl, hb⟩⟩
    | modifyDN _ => simp only [call, handleModifyDN, modifyDNTarget, hcs, bind, Except.bind]; exact ⟨rfl, rfl, .inl ⟨f, rfl, hb⟩⟩
    | compare _ => simp only [call, handleCompare, hcs, bind, Except.bind]; exact ⟨rfl, rfl, .inl ⟨f, rfl, hb⟩⟩
  | ok _ =>
    cases ha with
    | bind hb' hm =>
      rename_i t v b a
      have : ∃ f, handleBind env st v (.bytes b) a cs = .error f ∧ Bad luck f := by
        unfold handleBind
        simp only [bind, Except.bind]
        cases hv : checkVersion v with
        | error g =>
          refine ⟨g, rfl, ?_⟩
          unfold checkVersion at hv
          split at hv
          · cases hv
          · split at hv <;> cases hv
            · simp [Bad, Fault.report]
            · exact bad_py _ _
        | ok _ =>
          refine ⟨.ldap 49 .none, ?_, by simp [Bad, Fault.report]⟩
          have : PyVal.bytes b ≠ .bytes [] := by intro h; cases h; exact hb' rfl
          simp only [hcs, if_neg this, readDn_means hm, Server.lift, hl]
      obtain ⟨g, hg, hgb⟩ := this
      simp only [call, hg]
      exact ⟨rfl, rfl, .inl ⟨g, rfl, hgb⟩⟩
    | search hdse hm =>
      rename_i t b s de sl tl ty f as
      have hw : wantsRootDSE (.bytes b) s f = .ok false := by
        unfold wantsRootDSE
        rw [if_neg]
        rintro ⟨h1, h2⟩
        rcases hdse with h | h
        · cases h1; exact h rfl
        · exact h h2
      simp only [call, handleSearch, hcs, bind, Except.bind, hw, Server.lift, readDn_means hm, Bool.false_eq_true, if_false, pure, Except.pure,
        searchAt, hl]
      exact ⟨rfl, rfl, .inr ⟨_, rfl, _, _, _, _, _, _, rfl, by simp [Fault.reportSearch, ldapCode]⟩⟩
    | modify hm =>
      rename_i t b ms
      cases hms : Ldap.mapM' modOf ms with
      | error e => simp only [call, handleModify, modifyTarget, hcs, bind, Except.bind, hms, Server.lift]; exact ⟨rfl, rfl, .inl ⟨_, rfl, bad_py _ _⟩⟩
      | ok l =>
        simp only [call, handleModify, modifyTarget, hcs, bind, Except.bind, hms, Server.lift, readDn_means hm, hl]
        exact ⟨rfl, rfl, .inl ⟨_, rfl, bad_py _ _⟩⟩
    | add hm =>
      rename_i t b as
      cases has : addAttributes as with
      | error e => simp only [call, handleAdd, hcs, bind, Except.bind, has, Server.lift, onHeap]; exact ⟨rfl, rfl, .inl ⟨_, rfl, bad_py _ _⟩⟩
      | ok l =>
        cases d with
        | nil =>
          simp only [call, handleAdd, hcs, bind, Except.bind, has, Server.lift, readDn_means hm, onHeap]
          exact ⟨rfl, rfl, .inl ⟨_, rfl, bad_py _ _⟩⟩
        | cons r p =>
          have hlt : lookup env.U st.heap 0 p = .error .noSuchObject := hlt
          simp only [call, handleAdd, hcs, bind, Except.bind, has, Server.lift, readDn_means hm, hlt, onHeap]
          exact ⟨rfl, rfl, .inl ⟨_, rfl, bad_py _ _⟩⟩
    | delete hm =>
      simp only [call, handleDelete, hcs, bind, Except.bind, Server.lift, readDn_means hm, hl, onHeap]
      exact ⟨rfl, rfl, .inl ⟨_, rfl, bad_py _ _⟩⟩
    | modifyDN hm =>
      rename_i t b r de s
      have : ∃ f, handleModifyDN env st.heap (.bytes b) r de s cs = (st.heap, .error f) ∧ Bad luck f := by
        simp only [handleModifyDN, modifyDNTarget, hcs, bind, Except.bind, Server.lift, readDn_means hm]
        cases readRdn env.U r with
        | error e => exact ⟨_, rfl, bad_py _ _⟩
        | ok r =>
          cases hde : checkDeleteOld de with
          | error f =>
            refine ⟨f, rfl, ?_⟩
            unfold checkDeleteOld at hde
            split at hde <;> cases hde
            simp [Bad, Fault.report]
          | ok _ =>
            cases superior env.U d s with
            | error e => exact ⟨_, rfl, bad_py _ _⟩
            | ok s => simp only [hl]; exact ⟨_, rfl, bad_py _ _⟩
      obtain ⟨g, hg, hgb⟩ := this
      simp only [call, hg]
      exact ⟨rfl, rfl, .inl ⟨g, rfl, hgb⟩⟩
    | compare hm =>
      simp only [call, handleCompare, hcs, bind, Except.bind, Server.lift, readDn_means hm, compareAt, hl, pure, Except.pure]
      exact ⟨rfl, rfl, .inr ⟨_, rfl, _, _, _, _, _, _, rfl, by simp [Fault.reportSearch, ldapCode]⟩⟩

/-- **C88** A request about an entry outside the naming context is refused, and changes nothing. -/
theorem outside (env : Env) (luck : Luck) (st : State) (n : Node) (hn : st.heap[0]? = some n) (d : Dn.Dn)
    (ho : ¬ foldDn env.U n.entry.dn <:+ foldDn env.U d) (id : PyVal) (request : Obj) (ha : About env.U d request)
    (cs : Option (List (PyVal × PyVal × PyVal))) (s : Served) (hs : serve env luck st (.message id request cs) = some s) :
    s.state = st ∧ ∀ x ∈ s.sent, Refuses x.2 := by
  obtain ⟨h1, h2, h3⟩ := refusing env luck st n hn d ho id request ha cs
  simp only [serve] at hs
  split at hs
  · split at hs
    · cases hs; exact ⟨rfl, nofun⟩
    · cases hs
      refine ⟨h1, ?_⟩
      simp only [h2, List.map_nil, List.nil_append]
      rcases h3 with ⟨f, h3, hb⟩ | ⟨r, h3, hr⟩
      · simp only [h3]; exact final_refuses (fail_refuses ha hb)
      · simp only [h3]; exact final_refuses hr
  · cases hs

theorem below_within {h : Heap} (hv : Inv h) (U : Unicode) : ∀ {i j : Nat} {l : List Nat}, Path h i l j → ∀ {n m : Node}, h[i]? = some n →
    h[j]? = some m → foldDn U n.entry.dn <:+ foldDn U m.entry.dn := by
  intro i j l hp
  induction hp with
  | here => intro n m h1 h2; rw [h1] at h2; cases h2; exact List.suffix_rfl
  | @down i c j k l hc _ ih =>
    intro n m h1 h2
    obtain ⟨n', hn', hk⟩ := hc
    rw [h1] at hn'
    cases hn'
    obtain ⟨_, x, r, hx, _, hd, _⟩ := hv.links i n k c h1 hk
    refine List.IsSuffix.trans ?_ (ih hx h2)
    rw [hd]
    exact List.suffix_cons _ _

/-- **C88** What is there is inside the naming context, as long as nothing was renamed (`Built`); so is all that a search may
return, wherever its base is. -/
theorem within_partial (env : Env) (h : Heap) (hb : C67.Built env h) (n : Node) (hn : h[0]? = some n) :
    (∀ j m, Below h 0 j → h[j]? = some m → foldDn env.U n.entry.dn <:+ foldDn env.U m.entry.dn) ∧
    ∀ d j sc k m, lookup env.U h 0 d = .ok j → C26.InScope h j sc k → h[k]? = some m →
      foldDn env.U n.entry.dn <:+ foldDn env.U d ∧ foldDn env.U n.entry.dn <:+ foldDn env.U m.entry.dn := by
  have hv := hb.inv.1
  refine ⟨fun j m ⟨l, hp⟩ hm => below_within hv env.U hp hn hm, fun d j sc k m hj hk hm => ?_⟩
  have hd : foldDn env.U n.entry.dn <:+ foldDn env.U d := by
    refine Classical.byContradiction fun ho => ?_
    rw [lookup_outside hn ho] at hj
    cases hj
  refine ⟨hd, ?_⟩
  have hbelow : ∀ (fuel i : Nat) (j : Nat), lookupLoop env.U h fuel i d = .ok j → Below h i j := by
    intro fuel
    induction fuel with
    | zero => intro i j h; cases h
    | succ fuel ih =>
      intro i j hj
      simp only [lookupLoop] at hj
      split at hj
      · cases hj
      · rename_i x hx
        split at hj
        · cases hj
        · split at hj
          · cases hj; exact ⟨[], .here _⟩
          · split at hj
            · rename_i c hc
              obtain ⟨l, hl⟩ := ih _ _ hj
              exact ⟨_, .down ⟨x, hx, List.mem_of_find?_eq_some hc⟩ hl⟩
            · cases hj
  obtain ⟨l, hl⟩ := hbelow _ _ _ hj
  obtain ⟨mj, hmj⟩ : ∃ mj, h[j]? = some mj := by
    cases hx : h[j]? with
    | some x => exact ⟨x, rfl⟩
    | none =>
      exfalso
      have : ∀ {i j : Nat} {l : List Nat}, Path h i l j → (∃ x, h[i]? = some x) → ∃ x, h[j]? = some x := by
        intro i j l hp
        induction hp with
        | here => exact id
        | @down i c j k l hc _ ih =>
          rintro -
          obtain ⟨n', hn', hk⟩ := hc
          obtain ⟨_, x, _, hx, _⟩ := hv.links i n' k c hn' hk
          exact ih ⟨x, hx⟩
      obtain ⟨x, hx'⟩ := this hl ⟨n, hn⟩
      rw [hx] at hx'; cases hx'
  have h1 := below_within hv env.U hl hn hmj
  refine h1.trans ?_
  cases sc with
  | base => cases hk; rw [hmj] at hm; cases hm; exact List.suffix_rfl
  | one =>
    obtain ⟨t, hc⟩ := hk
    exact below_within hv env.U (.down hc (.here _)) hmj hm
  | sub => obtain ⟨l', hl'⟩ := hk; exact below_within hv env.U hl' hmj hm

/-! ### Versions and extensions -/

/-- **C88** Version 3 is the one that is listed; an anonymous bind with it is accepted, and every bind with another one is
refused as a protocol error. -/
theorem versions (env : Env) (luck : Luck) (st : State) (i : Int) (hi : 0 < i ∧ i < 2 ^ 31) (t : UInt8) (v : Int) (hv : Fit (decimal v))
    (a : Auth) (cs : C41.Controls) (hcs : ¬ C41.HasCritical cs) :
    (v = 3 → ∃ s, serve env luck st (.message (.int i) (.bind t (.int v) (.bytes []) a) (some cs)) = some s ∧
      s.state = { st with bound := none } ∧ s.sent = [(.int i, (Op.bindResponse 0 [] [] none).build)]) ∧
    (v ≠ 3 → ∀ dn, ∃ s m, serve env luck st (.message (.int i) (.bind t (.int v) dn a) (some cs)) = some s ∧ s.state = st ∧
      s.sent = [(.int i, (Op.bindResponse 2 [] m none).build)]) := by
  have hi0 : PyVal.int i ≠ .int 0 := by intro h; cases h; omega
  constructor
  · rintro rfl
    have henc : encodes (.int i) (Op.bindResponse 0 [] [] none).build = true := encodes_op i _ ⟨by omega, hi.2⟩ (by decide)
    have hh : handleBind env st (.int 3) (.bytes []) a (some cs) = .ok (none, (Op.bindResponse 0 [] [] none).build) := by
      simp only [handleBind, checkVersion, checkControls, C41.checkEach_ok hcs, if_true, bind, Except.bind, pure, Except.pure]
      rfl
    exact ⟨_, by simp only [serve, isRequest, if_true, if_neg hi0, call, hh, final, henc, List.map_nil, List.nil_append]; rfl, rfl, rfl⟩
  · intro hne dn
    let m : Bytes := ascii "Version " ++ decimal v ++ ascii " not supported"
    have hl : (ascii "Version ").length = 8 ∧ (ascii " not supported").length = 14 := by decide +kernel
    have henc : encodes (.int i) (Op.bindResponse 2 [] m none).build = true := by
      refine encodes_op i _ ⟨by omega, hi.2⟩ ?_
      unfold Fit at hv
      have h2 : intSize 2 < 200 := by decide
      simp only [Op.size, optSize, octSize, elementSize, m, List.length_append, hl.1, hl.2, List.length_nil]
      omega
    have hvn : PyVal.int v ≠ .int 3 := by intro h; cases h; exact hne rfl
    have hh : handleBind env st (.int v) dn a (some cs) = .error (.ldap 2 (.text m)) := by
      simp only [handleBind, checkVersion, if_neg hvn, bind, Except.bind]
      rfl
    have hf : failWith (.bind t (.int v) dn a) 2 (.text m) = (Op.bindResponse 2 [] m none).build := rfl
    exact ⟨_, m, by simp only [serve, isRequest, if_true, if_neg hi0, call, hh, final, Fault.report, hf, henc, List.map_nil, List.nil_append]; rfl, rfl, rfl⟩

/-- **C88** An extended request whose name is not listed is answered with a protocol error and changes nothing. -/
theorem extensions_unlisted (env : Env) (luck : Luck) (st : State) (i : Int) (hi : 0 < i ∧ i < 2 ^ 31) (t : UInt8) (name : Bytes)
    (hf : Fit name) (hne : name ≠ ascii "1.3.6.1.4.1.4203.1.11.1") (value : PyVal) (cs : C41.Controls) (hcs : ¬ C41.HasCritical cs) :
    ∃ s m, serve env luck st (.message (.int i) (.extRequest t (.bytes name) value) (some cs)) = some s ∧ s.state = st ∧
      s.sent = [(.int i, (Op.extResponse 2 [] m none none).build)] := by
  have hi0 : PyVal.int i ≠ .int 0 := by intro h; cases h; omega
  let m : Bytes := ascii "Unknown extended request: " ++ name
  have hl : (ascii "Unknown extended request: ").length = 26 := by decide +kernel
  have henc : encodes (.int i) (Op.extResponse 2 [] m none none).build = true := by
    refine encodes_op i _ ⟨by omega, hi.2⟩ ?_
    unfold Fit at hf
    have h2 : intSize 2 < 200 := by decide
    simp only [Op.size, optSize, octSize, elementSize, m, List.length_append, hl, List.length_nil]
    omega
  have hn : PyVal.bytes name ≠ passwordModifyOid := by
    intro h; unfold passwordModifyOid at h; cases h; exact hne rfl
  have hh : handleExtended env luck st (.bytes name) value (some cs) = .error (.ldap 2 (.text m)) := by
    simp only [handleExtended, checkControls, C41.checkEach_ok hcs, if_neg hn, bind, Except.bind]
    rfl
  have hff : failWith (.extRequest t (.bytes name) value) 2 (.text m) = (Op.extResponse 2 [] m none none).build := rfl
  exact ⟨_, m, by
    simp only [serve, isRequest, if_true, if_neg hi0, call, hh, onHeap, final, Fault.report, hff, henc, List.map_nil, List.nil_append]; rfl, rfl, rfl⟩

/-- **C88** The extended request that is listed is understood, if its value has the form given by RFC 3062: the answer is not a
protocol error. -/
theorem extensions_listed (env : Env) (luck : Luck) (st : State) (i : Int) (t : UInt8) (v : Bytes) (cs : Option C41.Controls)
    (user old new : Option Bytes) (ha : C43.Asks v user old new) (hi : 0 < i ∧ i < 2 ^ 31) (hf : Fits luck st (C43.request t v) cs)
    (hc : ∀ l ∈ cs, ¬ C41.HasCritical l) (hb : ∀ j, st.bound = some j → ∃ n, st.heap[j]? = some n) :
    ∃ s op code, serve env luck st (.message (.int i) (C43.request t v) cs) = some s ∧ s.sent = [(.int i, Op.build op)] ∧
      FinalFor (C43.request t v) op ∧ Op.code op = some code ∧ code ≠ 2 := by
  obtain ⟨s, op, code, h1, h2, hfin, ⟨h3, -⟩, h4⟩ := C43.decided env luck st i t v cs user old new ha hi hf hc hb
  refine ⟨s, op, code, h1, h2, hfin, h3, ?_⟩
  rcases h4 with ⟨_, rfl, _⟩ | ⟨_, _, _, _, ⟨_, _, _, rfl, _⟩ | ⟨_, ⟨_, rfl, _⟩ | ⟨_, _, _, _, rfl, _⟩⟩⟩ <;> decide

/-! ### Witnesses -/

theorem elsewhere : Means asciiTables (ascii "cn=b,dc=c") [[⟨['c','n'], ['b']⟩], [⟨['d','c'], ['c']⟩]] ∧
    ¬ foldDn asciiTables C67.root.dn <:+ foldDn asciiTables [[⟨['c','n'], ['b']⟩], [⟨['d','c'], ['c']⟩]] := by
  refine ⟨C87.readName_means.mp (by decide +kernel), fun h => ?_⟩
  have := (C11.contains_iff_suffix asciiTables _ _).mpr h
  revert this
  decide +kernel

/-- The hypotheses of `outside`, for a delete request. -/
example (s : Served) (hs : serve C40.env C40.luck ⟨C67.heap, none⟩ (.message (.int 5) (Op.delete (ascii "cn=b,dc=c")).build none) = some s) :
    s.state = ⟨C67.heap, none⟩ ∧ ∀ x ∈ s.sent, Refuses x.2 :=
  outside C40.env C40.luck ⟨C67.heap, none⟩ _ rfl _ elsewhere.2 _ _ (.delete elsewhere.1) _ s hs

/-- It is answered, with `noSuchObject`; inside the naming context it succeeds. -/
example : C67.answers (serve C40.env C40.luck ⟨C67.heap, none⟩ (.message (.int 5) (Op.delete (ascii "cn=b,dc=c")).build none)) =
      [[.int 5, .int 32]] ∧
    C67.answers (serve C40.env C40.luck ⟨C67.heap, none⟩ (.message (.int 5) (Op.delete (ascii "cn=b,dc=a")).build none)) =
      [[.int 5, .int 0]] := by decide +kernel

/-- `within_partial`, for the child of the root. -/
example := (within_partial C40.env C67.heap C67.built _ rfl).1 1 _ ⟨_, .down ⟨_, rfl, List.mem_singleton.mpr rfl⟩ (.here _)⟩ rfl

example := versions C40.env C40.luck ⟨C67.heap, some 1⟩ 5 (by decide) 0x40 2 (by unfold Fit; decide +kernel) (.simple (.bytes [])) []
  (by rintro ⟨_, _, _, h, _⟩; cases h)

example := extensions_unlisted C40.env C40.luck ⟨C67.heap, some 1⟩ 5 (by decide) 0x57 (ascii "1.3.6.1.4.1.1466.20037") (by unfold Fit; decide +kernel)
  (by decide +kernel) .none [] (by rintro ⟨_, _, _, h, _⟩; cases h)

def search (base : Bytes) (scope : Int) (f : Filter) (wanted : List PyVal) : Obj :=
  .searchRequest 0x43 (.bytes base) (.int scope) (.int 0) (.int 0) (.int 0) (.int 0) f.build wanted

def after (st : State) (request : Obj) : State :=
  match serve C40.env C40.luck st (.message (.int 1) request none) with
  | some s => s.state
  | none => st

/-- **C88** Where the property fails: the root can be renamed.  It is then announced under its new name, what is below it keeps
its old name, cannot be found by it, and is returned by searches although it is outside the naming context. -/
theorem root_renamed :
    let st := after ⟨C67.heap, none⟩ (Op.modifyDN (ascii "dc=a") (ascii "dc=z") true none).build
    C67.answers (serve C40.env C40.luck st (.message (.int 2) (search [] 0 (.present (ascii "objectClass")) []) none)) =
      [[.int 2, .bytes [], .bytes (ascii "supportedLDAPVersion"), .bytes (ascii "3"), .bytes (ascii "namingContexts"), .bytes (ascii "dc=z"),
        .bytes (ascii "supportedExtension"), .bytes (ascii "1.3.6.1.4.1.4203.1.11.1")], [.int 2, .int 0]] ∧
    C67.answers (serve C40.env C40.luck st (.message (.int 3) (search (ascii "dc=z") 2 (.present (ascii "sn")) [.bytes (ascii "sn")]) none)) =
      [[.int 3, .bytes (ascii "cn=b,dc=a"), .bytes (ascii "sn"), .bytes (ascii "y")], [.int 3, .int 0]] ∧
    (∀ base ∈ [ascii "cn=b,dc=a", ascii "cn=b,dc=z"], C67.answers (serve C40.env C40.luck st
      (.message (.int 4) (search base 0 (.present (ascii "sn")) []) none)) = [[.int 4, .int 32]]) := by decide +kernel

/-- **C88** Where the property fails: attribute descriptions are compared without regard to case, but the root DSE is there for one
spelling of `objectClass` only. -/
theorem respelled :
    SameName (.bytes (ascii "objectClass")) (.bytes (ascii "objectclass")) ∧
    C67.answers (serve C40.env C40.luck ⟨C67.heap, none⟩ (.message (.int 2) (search [] 0 (.present (ascii "objectclass")) []) none)) =
      [[.int 2, .int 32]] := by
  refine ⟨by unfold SameName; decide +kernel, by decide +kernel⟩

/-- **C88** Where the property fails: the same root DSE is sent whatever attributes are asked for, even for none. -/
theorem unasked (env : Env) (luck : Luck) (st : State) (i : PyVal) (cs : Option C41.Controls) (wanted wanted' : List PyVal) :
    serve env luck st (.message i (search [] 0 (.present (ascii "objectClass")) wanted) cs) =
      serve env luck st (.message i (search [] 0 (.present (ascii "objectClass")) wanted') cs) := by
  have hroot : wantsRootDSE (.bytes []) (.int 0) (Filter.present (ascii "objectClass")).build = .ok true := by decide +kernel
  cases hc : checkControls cs <;>
    simp [serve, search, isRequest, call, handleSearch, hc, hroot, Server.lift, bind, Except.bind, failWith]

end Verif.C88
