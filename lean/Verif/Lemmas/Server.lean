import Verif.Spec.Server
import Verif.Spec.Size
import Verif.Lemmas.Total
/-
Lemmas about the model of the server: every handler ends in a response of the right kind or in an exception that can be
reported.
-/
namespace Verif.Server
open Verif.Ldap Verif.Spec

theorem two64_lt_limit : 2 ^ 64 < lengthLimit := by decide +kernel

/-- A response of moderate size is encoded. -/
theorem encodes_op (i : Int) (op : Op) (hi : 0 ≤ i ∧ i < 2 ^ 31) (h : op.size < 2 ^ 50) : encodes (.int i) op.build = true := by
  have hs : (Msg.mk i op none).size < lengthLimit := by
    have := two64_lt_limit
    simp only [Msg.size, controlsSize, elementSize, intSize]
    omega
  obtain ⟨w, hw, _⟩ := W.msg ⟨i, op, none⟩ hs
  simp only [Msg.build, Option.map_none] at hw
  simp [encodes, hw, Except.isOk, Except.toBool]

/-- The fault can be reported in a response. -/
def Small (luck : Luck) (f : Fault) : Prop :=
  ∃ b, (f.report luck).2.value = .bytes b ∧ b.length < 2 ^ 40 ∧ 0 ≤ (f.report luck).1 ∧ (f.report luck).1 < 1024

/-- A handler ends with a result satisfying `Q`, or with a fault that can be reported. -/
def Post {α : Type} (luck : Luck) (Q : α → Prop) : Act α → Prop
  | .ok a => Q a
  | .error f => Small luck f

theorem Post.bind {α β : Type} {luck : Luck} {P : α → Prop} {Q : β → Prop} {x : Act α} {f : α → Act β}
    (hx : Post luck P x) (hf : ∀ a, P a → Post luck Q (f a)) : Post luck Q (x >>= f) := by
  cases x with
  | ok a => exact hf a hx
  | error e => exact hx

theorem Post.mono {α : Type} {luck : Luck} {P Q : α → Prop} {x : Act α} (hx : Post luck P x) (h : ∀ a, P a → Q a) :
    Post luck Q x := by
  cases x with
  | ok a => exact h a hx
  | error e => exact hx

theorem ldapCode_range (e : PyErr) : 0 ≤ (ldapCode e).getD 2 ∧ (ldapCode e).getD 2 < 1024 := by
  cases e <;> simp [ldapCode]

theorem Small.py {luck : Luck} (ht : ∀ e, Fit (luck.text e)) (e : PyErr) : Small luck (.py e) :=
  ⟨luck.text e, rfl, by have := ht e; unfold Fit at this; omega, (ldapCode_range e).1, (ldapCode_range e).2⟩

theorem Small.ldap {luck : Luck} {c : Int} {m : Message} {b : Bytes} (hm : m.value = .bytes b) (hb : b.length < 2 ^ 40)
    (hc : 0 ≤ c ∧ c < 1024) : Small luck (.ldap c m) := ⟨b, hm, hb, hc.1, hc.2⟩

theorem Post.lift {α : Type} {luck : Luck} (ht : ∀ e, Fit (luck.text e)) (x : Py α) :
    Post luck (fun a => x = .ok a) (lift x) := by
  cases x with
  | ok a => rfl
  | error e => exact Small.py ht e

theorem ascii_control : (ascii "Unknown control ").length = 16 := by decide +kernel

theorem Post.checkControls {luck : Luck} (ht : ∀ e, Fit (luck.text e)) {controls : Option (List (PyVal × PyVal × PyVal))}
    (hc : ∀ cs ∈ controls, ∀ c ∈ cs, ∀ b, c.1 = .bytes b → Fit b) :
    Post luck (fun _ => True) (checkControls controls) := by
  cases controls with
  | none => exact True.intro
  | some cs =>
    have hc' := hc cs rfl
    clear hc
    show Post luck (fun _ => True) (checkEach cs)
    induction cs with
    | nil => exact True.intro
    | cons c cs ih =>
      obtain ⟨ty, cr, v⟩ := c
      rw [checkEach]
      split
      · cases ty with
        | bytes t =>
          refine Small.ldap (b := _) rfl ?_ (by omega)
          have := hc' _ (List.mem_cons_self) t rfl
          unfold Fit at this
          rw [List.length_append, ascii_control]
          omega
        | int _ => exact Small.py ht _
        | none => exact Small.py ht _
      · exact ih (fun c hc => hc' c (List.mem_cons_of_mem _ hc))

/-- A final response of moderate size for a request. -/
def Answer (request r : Obj) : Prop := ∃ op : Op, r = op.build ∧ FinalFor request op ∧ op.size < 2 ^ 50

theorem Answer.mk {request : Obj} {op : Op} (h : FinalFor request op) (hs : op.size < 2 ^ 50) : Answer request op.build :=
  ⟨op, rfl, h, hs⟩

section
variable {c : Int} {b : Bytes}

theorem size_result (k : ResultKind) (hc : 0 ≤ c ∧ c < 1024) (m : Bytes) (hm : m.length < 2 ^ 40) (hb : b.length < 2 ^ 40) :
    (Op.result k c m b).size < 2 ^ 50 := by
  simp only [Op.size, elementSize, intSize, octSize]; omega

theorem size_bind (hc : 0 ≤ c ∧ c < 1024) (m : Bytes) (hm : m.length < 2 ^ 40) (hb : b.length < 2 ^ 40) :
    (Op.bindResponse c m b none).size < 2 ^ 50 := by
  simp only [Op.size, elementSize, intSize, octSize, optSize]; omega

theorem size_ext (hc : 0 ≤ c ∧ c < 1024) (m : Bytes) (hm : m.length < 2 ^ 40) (hb : b.length < 2 ^ 40) (n : Option Bytes)
    (hn : ∀ x ∈ n, x.length < 2 ^ 40) : (Op.extResponse c m b n none).size < 2 ^ 50 := by
  cases n with
  | none => simp only [Op.size, elementSize, intSize, octSize, optSize]; omega
  | some x =>
    have := hn x rfl
    simp only [Op.size, elementSize, intSize, octSize, optSize]; omega
end

/-- The error response of a request. -/
theorem answer_failWith {request : Obj} (hr : Answerable request) {code : Int} {m : Message} {b : Bytes}
    (hm : m.value = .bytes b) (hb : b.length < 2 ^ 40) (hc : 0 ≤ code ∧ code < 1024) :
    Answer request (failWith request code m) := by
  cases hr
  case bind => exact ⟨_, by simp only [failWith, respond, hm]; rfl, .bind, size_bind hc [] (by simp) hb⟩
  case compare => exact ⟨.result .compare code [] b, by simp only [failWith, respond, hm]; rfl, .compare, size_result _ hc [] (by simp) hb⟩
  case search => exact ⟨.result .searchDone code [] b, by simp only [failWith, respond, hm]; rfl, .search, size_result _ hc [] (by simp) hb⟩
  case add => exact ⟨.result .add code [] b, by simp only [failWith, respond, hm]; rfl, .add, size_result _ hc [] (by simp) hb⟩
  case modifyDN => exact ⟨.result .modifyDN code [] b, by simp only [failWith, respond, hm]; rfl, .modifyDN, size_result _ hc [] (by simp) hb⟩
  case modify => exact ⟨.result .modify code [] b, by simp only [failWith, respond, hm]; rfl, .modify, size_result _ hc [] (by simp) hb⟩
  case extended => exact ⟨.extResponse code [] b none none, by simp only [failWith, extRespond, hm]; rfl, .extended, size_ext hc [] (by simp) hb none (by simp)⟩
  case delete => exact ⟨.result .delete code [] b, by simp only [failWith, respond, hm]; rfl, .delete, size_result _ hc [] (by simp) hb⟩

theorem dnOctets_fit {h : Tree.Heap} (hd : ∀ n ∈ h, Fit (Utf8.encode n.entry.dn.text)) (i : Nat) :
    (dnOctets h i).length < 2 ^ 40 := by
  unfold dnOctets Tree.dnOf
  cases hn : h[i]? with
  | none => simp [Dn.Dn.text, joinWith, Utf8.encode]
  | some n =>
    have := hd n (List.mem_of_getElem? hn)
    unfold Fit at this
    simp only [Option.map_some, Option.getD_some]
    omega

theorem post_bind {env : Env} {luck : Luck} {st : State} {t : UInt8} {v d : PyVal} {a : Auth}
    {controls : Option (List (PyVal × PyVal × PyVal))} (hf : Fits luck st (.bind t v d a) controls) :
    Post luck (fun r => Answer (.bind t v d a) r.2) (handleBind env st v d a controls) := by
  unfold handleBind
  refine Post.bind (P := fun _ => True) ?_ fun _ _ => ?_
  · unfold checkVersion
    split
    · trivial
    · cases v with
      | int i =>
        refine Small.ldap rfl ?_ (by omega)
        have h1 := hf.version t i d a rfl
        have h2 : (ascii "Version ").length = 8 := by decide +kernel
        have h3 : (ascii " not supported").length = 14 := by decide +kernel
        unfold Fit at h1
        rw [List.length_append, List.length_append, h2, h3]
        omega
      | bytes _ => exact Small.py hf.text _
      | none => exact Small.py hf.text _
  refine Post.bind (Post.checkControls hf.text hf.controls) fun _ _ => ?_
  split
  · exact ⟨.bindResponse 0 [] [] none, rfl, .bind, size_bind (by omega) [] (by simp) (by simp)⟩
  · refine Post.bind (Post.lift hf.text _) fun dn _ => ?_
    split
    · exact Small.ldap (b := []) rfl (by simp) (by omega)
    · exact Small.py hf.text _
    · rename_i i _
      refine Post.bind (Post.lift hf.text _) fun pw _ => ?_
      refine Post.bind (Post.lift hf.text _) fun ok _ => ?_
      split
      · exact ⟨.bindResponse 0 (dnOctets st.heap i) [] none, rfl, .bind,
          size_bind (by omega) _ (dnOctets_fit hf.dns i) (by simp)⟩
      · exact Small.ldap (b := []) rfl (by simp) (by omega)

theorem reportSearch_small {luck : Luck} (ht : ∀ e, Fit (luck.text e)) (f : Fault) (hf : Small luck f) :
    ∃ b, (f.reportSearch luck).2.value = .bytes b ∧ b.length < 2 ^ 40 ∧ 0 ≤ (f.reportSearch luck).1 ∧
      (f.reportSearch luck).1 < 1024 := by
  cases f with
  | ldap c m =>
    obtain ⟨_, _, _, h1, h2⟩ := hf
    exact ⟨[], rfl, by simp, h1, h2⟩
  | py e =>
    have h := ht e
    unfold Fit at h
    have h' := ldapCode_range e
    simp only [Fault.reportSearch]
    cases he : ldapCode e with
    | none => exact ⟨luck.text e, rfl, by omega, by simp, by simp⟩
    | some c =>
      rw [he] at h'
      exact ⟨[], rfl, by simp, h'.1, h'.2⟩

theorem post_compareAt {env : Env} {luck : Luck} (ht : ∀ e, Fit (luck.text e)) (h : Tree.Heap) (d : Dn.Dn) (t : UInt8)
    (n : PyVal) (ava : Obj) : Post luck (Answer (.compare t n ava)) (compareAt env h d ava) := by
  unfold compareAt
  refine Post.bind (Post.lift ht _) fun i _ => ?_
  split
  · split
    · exact ⟨.result .compare 6 [] [], rfl, .compare, size_result _ (by omega) [] (by simp) (by simp)⟩
    · exact ⟨.result .compare 5 [] [], rfl, .compare, size_result _ (by omega) [] (by simp) (by simp)⟩
    · exact Small.py ht _
  · exact Small.py ht _

theorem post_compare {env : Env} {luck : Luck} {st : State} {t : UInt8} {n : PyVal} {ava : Obj}
    {controls : Option (List (PyVal × PyVal × PyVal))} (hf : Fits luck st (.compare t n ava) controls) :
    Post luck (Answer (.compare t n ava)) (handleCompare env luck st.heap n ava controls) := by
  unfold handleCompare
  refine Post.bind (Post.checkControls hf.text hf.controls) fun _ _ => ?_
  refine Post.bind (Post.lift hf.text _) fun d _ => ?_
  have hp := post_compareAt (env := env) hf.text st.heap d t n ava
  split
  · rename_i r hr
    rw [hr] at hp; exact hp
  · rename_i f hr
    rw [hr] at hp
    obtain ⟨b, hm, hb, h1, h2⟩ := reportSearch_small hf.text f hp
    exact ⟨.result .compare (f.reportSearch luck).1 [] b, by simp only [respond, hm]; rfl, .compare,
      size_result _ ⟨h1, h2⟩ [] (by simp) hb⟩

/-! Search. -/

theorem resultEntry_isEntry {env : Env} {as : List PyVal} {e : Entry} {o : Obj} (h : resultEntry env as e = .ok o) :
    IsEntry o := by
  unfold resultEntry at h
  simp only [bind, Except.bind] at h
  split at h
  · cases h
  · exact ⟨_, _, (Except.ok.inj h).symm⟩

/-- What is sent for a search is accepted by the callback. -/
theorem sendEach_accept {accept : Nat → Option Bool} (l : List Nat) : ∀ i ∈ (sendEach accept l).1, accept i = some true := by
  induction l with
  | nil => simp [sendEach]
  | cons c cs ih =>
    intro i hi
    simp only [sendEach] at hi
    split at hi
    · simp at hi
    · rename_i b hb
      rw [List.mem_append] at hi
      rcases hi with hi | hi
      · cases b
        · simp at hi
        · simp at hi; rw [hi]; exact hb
      · exact ih i hi

theorem walkLoop_mem {visit : Nat → List Nat × Bool} {P : Nat → Prop} (l : List Nat)
    (hv : ∀ c, ∀ i ∈ (visit c).1, P i) : ∀ i ∈ Tree.walkLoop visit l, P i := by
  induction l with
  | nil => simp [Tree.walkLoop]
  | cons c cs ih =>
    intro i hi
    simp only [Tree.walkLoop] at hi
    have hc := hv c
    split at hi
    · rename_i r hr; rw [hr] at hc; exact hc i hi
    · rename_i r hr
      rw [hr] at hc
      rw [List.mem_append] at hi
      rcases hi with hi | hi
      · exact hc i hi
      · exact ih i hi

theorem walk_accept {h : Tree.Heap} {accept : Nat → Option Bool} (fuel : Nat) :
    ∀ j, ∀ i ∈ (Tree.walk h accept fuel j).1, accept i = some true := by
  induction fuel with
  | zero => simp [Tree.walk]
  | succ n ih =>
    intro j i hi
    simp only [Tree.walk] at hi
    split at hi
    · simp at hi
    · rename_i b hb
      rw [List.mem_append] at hi
      rcases hi with hi | hi
      · cases b
        · simp at hi
        · simp at hi; rw [hi]; exact hb
      · exact walkLoop_mem _ ih i hi

theorem searchNodes_accept {h : Tree.Heap} {accept : Nat → Option Bool} (j : Nat) (s : Tree.Scope) :
    ∀ i ∈ (searchNodes h j s accept).1, accept i = some true := by
  cases s
  · exact sendEach_accept _
  · exact sendEach_accept _
  · exact walk_accept _ _

theorem sendIfMatch_entry {env : Env} {h : Tree.Heap} {id : PyVal} {f : Match.Filter} {as : List PyVal} {i : Nat}
    (hs : sendIfMatch env h id f as i = some true) : IsEntry (entryFor env h as i) ∧ encodes id (entryFor env h as i) = true := by
  unfold sendIfMatch at hs
  split at hs
  · cases hs
  · cases hs
  · unfold entryFor
    split at hs
    · rename_i o ho
      split at hs
      · rename_i he
        exact ⟨resultEntry_isEntry ho, he⟩
      · cases hs
    · cases hs

/-- The shape of the answer to a search: entries, then a response. -/
def SearchAnswer (request : Obj) (id : PyVal) (r : List Obj × Obj) : Prop :=
  (∀ o ∈ r.1, IsEntry o ∧ encodes id o = true) ∧ Answer request r.2

theorem searchAt_answer {env : Env} {luck : Luck} (ht : ∀ e, Fit (luck.text e)) (h : Tree.Heap) (id : PyVal) (d : Dn.Dn)
    (t : UInt8) (base scope de sl tl ty : PyVal) (filter : Obj) (as : List PyVal) :
    SearchAnswer (.searchRequest t base scope de sl tl ty filter as) id (searchAt env luck h id d scope filter as) := by
  unfold searchAt
  split
  · rename_i e _
    refine ⟨by simp, ?_⟩
    obtain ⟨b, hm, hb, h1, h2⟩ := reportSearch_small ht (.py e) (Small.py ht e)
    exact ⟨.result .searchDone ((Fault.py e).reportSearch luck).1 [] b, by simp only [searchDone, respond, hm]; rfl, .search,
      size_result _ ⟨h1, h2⟩ [] (by simp) hb⟩
  · rename_i i _
    split
    · exact ⟨by simp, .result .searchDone 2 [] [], rfl, .search, size_result _ (by omega) [] (by simp) (by simp)⟩
    · rename_i s _
      have hacc := searchNodes_accept (h := h) (accept := sendIfMatch env h id (toFilter filter) as) i s
      have hent : ∀ l b, searchNodes h i s (sendIfMatch env h id (toFilter filter) as) = (l, b) →
          ∀ o ∈ l.map (entryFor env h as), IsEntry o ∧ encodes id o = true := by
        intro l b hl o ho
        obtain ⟨j, hj, rfl⟩ := List.mem_map.mp ho
        exact sendIfMatch_entry (hacc j (by rw [hl]; exact hj))
      split
      · rename_i l hl
        refine ⟨hent l _ hl, .result .searchDone 80 [] (luck.text .other), rfl, .search, size_result _ (by omega) [] (by simp) ?_⟩
        have := ht .other
        unfold Fit at this
        omega
      · rename_i l hl
        exact ⟨hent l _ hl, .result .searchDone 0 [] [], rfl, .search, size_result _ (by omega) [] (by simp) (by simp)⟩

theorem post_search {env : Env} {luck : Luck} {st : State} {id : PyVal} {t : UInt8} {base scope de sl tl ty : PyVal}
    {filter : Obj} {as : List PyVal} {controls : Option (List (PyVal × PyVal × PyVal))}
    (hf : Fits luck st (.searchRequest t base scope de sl tl ty filter as) controls) :
    Post luck (SearchAnswer (.searchRequest t base scope de sl tl ty filter as) id)
      (handleSearch env luck st.heap id base scope filter as controls) := by
  unfold handleSearch
  refine Post.bind (Post.checkControls hf.text hf.controls) fun _ _ => ?_
  refine Post.bind (Post.lift hf.text _) fun dse _ => ?_
  split
  · split
    · rename_i he
      refine ⟨?_, .result .searchDone 0 [] [], rfl, .search, size_result _ (by omega) [] (by simp) (by simp)⟩
      intro o ho
      simp only [List.mem_singleton] at ho
      subst ho
      exact ⟨⟨_, _, rfl⟩, he⟩
    · exact Small.py hf.text _
  · refine Post.bind (Post.lift hf.text _) fun d _ => ?_
    exact searchAt_answer hf.text ..

/-! Changes. -/

theorem post_delete {env : Env} {luck : Luck} {st : State} {t : UInt8} {v : Bytes}
    {controls : Option (List (PyVal × PyVal × PyVal))} (hf : Fits luck st (.oct .delRequest t v) controls)
    (hl : ¬ DeletesNonLeaf env st (.oct .delRequest t v)) :
    Post luck (fun r => Answer (.oct .delRequest t v) r.2) (handleDelete env st.heap (.bytes v) controls) := by
  unfold handleDelete
  refine Post.bind (Post.checkControls hf.text hf.controls) fun _ _ => ?_
  refine Post.bind (Post.lift hf.text _) fun d hd => ?_
  refine Post.bind (Post.lift hf.text _) fun i hi => ?_
  split
  · exact ⟨.result .delete 0 [] [], rfl, .delete, size_result _ (by omega) [] (by simp) (by simp)⟩
  · rename_i e he
    cases e
    case notAllowedOnNonLeaf =>
      exfalso
      unfold Tree.delete at he
      split at he
      · cases he
      · rename_i n hn
        split at he
        · cases he
        · rename_i p hp
          split at he
          · rename_i hch
            replace hd : (Utf8.decode v >>= fun s => Dn.Dn.parse env.U s) = .ok d := hd
            cases hs : Utf8.decode v with
            | error e => rw [hs] at hd; cases hd
            | ok s =>
              rw [hs] at hd
              exact hl ⟨t, v, s, d, i, n, rfl, hs, hd, hi, hn, by rw [hp]; simp, hch⟩
          · unfold Tree.deleteChild at he
            split at he
            · cases he
            · split at he
              · cases he
              · split at he <;> cases he
    case cannotRemoveRoot => exact Small.ldap (b := []) rfl (by simp) (by omega)
    all_goals exact Small.py hf.text _

theorem post_add {env : Env} {luck : Luck} {st : State} {t : UInt8} {n : PyVal} {as : Obj}
    {controls : Option (List (PyVal × PyVal × PyVal))} (hf : Fits luck st (.addRequest t n as) controls) :
    Post luck (fun r => Answer (.addRequest t n as) r.2) (handleAdd env st.heap n as controls) := by
  unfold handleAdd
  refine Post.bind (Post.checkControls hf.text hf.controls) fun _ _ => ?_
  refine Post.bind (Post.lift hf.text _) fun attrs _ => ?_
  refine Post.bind (Post.lift hf.text _) fun d _ => ?_
  split
  · exact Small.py hf.text _
  · refine Post.bind (Post.lift hf.text _) fun p _ => ?_
    refine Post.bind (Post.lift hf.text _) fun r _ => ?_
    refine Post.bind (Post.lift hf.text _) fun x _ => ?_
    exact ⟨.result .add 0 [] [], rfl, .add, size_result _ (by omega) [] (by simp) (by simp)⟩

theorem post_modifyDN {env : Env} {luck : Luck} {st : State} {t : UInt8} {n r d s : PyVal}
    {controls : Option (List (PyVal × PyVal × PyVal))} (hf : Fits luck st (.modifyDN t n r d s) controls) :
    Post luck (Answer (.modifyDN t n r d s)) (handleModifyDN env st.heap n r d s controls).2 := by
  unfold handleModifyDN
  have hp : Post luck (fun _ => True) (modifyDNTarget env st.heap n r d s controls) := by
    unfold modifyDNTarget
    refine Post.bind (Post.checkControls hf.text hf.controls) fun _ _ => ?_
    refine Post.bind (Post.lift hf.text _) fun dn _ => ?_
    refine Post.bind (Post.lift hf.text _) fun r _ => ?_
    refine Post.bind (P := fun _ => True) ?_ fun _ _ => ?_
    · unfold checkDeleteOld
      split
      · trivial
      · refine Small.ldap rfl ?_ (by omega)
        decide +kernel
    refine Post.bind (Post.lift hf.text _) fun _ _ => ?_
    refine Post.bind (Post.lift hf.text _) fun i _ => trivial
  split
  · rename_i f he; rw [he] at hp; exact hp
  · split
    · exact ⟨.result .modifyDN 0 [] [], rfl, .modifyDN, size_result _ (by omega) [] (by simp) (by simp)⟩
    · exact Small.py hf.text _

theorem post_modify {env : Env} {luck : Luck} {st : State} {t : UInt8} {o : PyVal} {ms : List Obj}
    {controls : Option (List (PyVal × PyVal × PyVal))} (hf : Fits luck st (.modifyRequest t o ms) controls) :
    Post luck (Answer (.modifyRequest t o ms)) (handleModify env st.heap o ms controls).2 := by
  unfold handleModify
  have hp : Post luck (fun _ => True) (modifyTarget env st.heap o ms controls) := by
    unfold modifyTarget
    refine Post.bind (Post.checkControls hf.text hf.controls) fun _ _ => ?_
    refine Post.bind (Post.lift hf.text _) fun _ _ => ?_
    refine Post.bind (Post.lift hf.text _) fun _ _ => ?_
    refine Post.bind (Post.lift hf.text _) fun _ _ => trivial
  split
  · rename_i f he; rw [he] at hp; exact hp
  · split
    · exact Small.py hf.text _
    · split
      · exact ⟨.result .modify 0 [] [], rfl, .modify, size_result _ (by omega) [] (by simp) (by simp)⟩
      · exact Small.py hf.text _

theorem passwordModify_small {env : Env} {luck : Luck} (ht : ∀ e, Fit (luck.text e)) (st : State) (data : Obj) :
    Post luck (fun _ => True) (passwordModify env luck st data) := by
  unfold passwordModify
  split
  · refine Small.ldap rfl ?_ (by omega); decide +kernel
  · split
    · refine Small.ldap rfl ?_ (by omega); decide +kernel
    · split
      · exact Small.ldap (b := []) rfl (by simp) (by omega)
      · split
        · exact Small.ldap (b := []) rfl (by simp) (by omega)
        · split
          · split
            · exact Small.py ht _
            · split
              · trivial
              · exact Small.py ht _
          · refine Small.ldap rfl ?_ (by omega); decide +kernel

theorem oid_length : (ascii "1.3.6.1.4.1.4203.1.11.1").length = 23 := by decide +kernel

theorem post_extended {env : Env} {luck : Luck} {st : State} {t : UInt8} {n v : PyVal}
    {controls : Option (List (PyVal × PyVal × PyVal))} (hf : Fits luck st (.extRequest t n v) controls) :
    Post luck (fun r => Answer (.extRequest t n v) r.2) (handleExtended env luck st n v controls) := by
  unfold handleExtended
  refine Post.bind (Post.checkControls hf.text hf.controls) fun _ _ => ?_
  split
  · rename_i hn
    split
    · refine Post.bind (Post.lift hf.text _) fun l _ => ?_
      split
      · rename_i data _
        have hp := passwordModify_small (env := env) hf.text st data
        split
        · refine ⟨.extResponse 0 [] [] (some (ascii "1.3.6.1.4.1.4203.1.11.1")) none, rfl, .extended,
            size_ext (by omega) [] (by simp) (by simp) _ ?_⟩
          intro x hx
          cases hx
          rw [oid_length]
          omega
        · rename_i c m he
          rw [he] at hp
          obtain ⟨b, hm, hb, h1, h2⟩ := hp
          refine ⟨.extResponse c [] b (some (ascii "1.3.6.1.4.1.4203.1.11.1")) none, ?_, .extended,
            size_ext ⟨h1, h2⟩ [] (by simp) hb _ ?_⟩
          · simp only [Fault.report] at hm
            simp only [extRespond, hm, hn]
            rfl
          · intro x hx
            cases hx
            rw [oid_length]
            omega
        · rename_i f _ he
          rw [he] at hp; exact hp
      · exact Small.py hf.text _
    · exact Small.py hf.text _
  · split
    · rename_i b _
      refine Small.ldap rfl ?_ (by omega)
      have h1 := hf.name t b v rfl
      have h2 : (ascii "Unknown extended request: ").length = 26 := by decide +kernel
      unfold Fit at h1
      rw [List.length_append, h2]
      omega
    · exact Small.py hf.text _

/-! `handle` -/

/-- How a call of a handler ends: entries only for a search, then a response or a fault that can be reported. -/
structure Ends (luck : Luck) (id : PyVal) (request : Obj) (d : Done) : Prop where
  entries : ∀ o ∈ d.sent, IsEntry o ∧ encodes id o = true
  search : d.sent ≠ [] → ∃ t b s de sl tl ty f as, request = .searchRequest t b s de sl tl ty f as
  result : Post luck (fun r => ∃ o, r = some o ∧ Answer request o) d.result

theorem Ends.plain {luck : Luck} {id : PyVal} {request : Obj} {st : State} {r : Act (Option Obj)}
    (h : Post luck (fun r => ∃ o, r = some o ∧ Answer request o) r) : Ends luck id request ⟨st, [], r⟩ :=
  ⟨by simp, by simp, h⟩

theorem Ends.onHeap {luck : Luck} {id : PyVal} {request : Obj} {st : State} {x : Act (Tree.Heap × Obj)}
    (h : Post luck (fun r => Answer request r.2) x) : Ends luck id request (onHeap st x) := by
  cases x with
  | ok a => exact Ends.plain ⟨_, rfl, h⟩
  | error f => exact Ends.plain h

theorem call_ends {env : Env} {luck : Luck} {st : State} {id : PyVal} {request : Obj}
    {controls : Option (List (PyVal × PyVal × PyVal))} (hr : Answerable request) (hf : Fits luck st request controls)
    (hl : ¬ DeletesNonLeaf env st request) : Ends luck id request (call env luck st id request controls) := by
  cases hr
  case bind =>
    have hp := post_bind (env := env) hf
    simp only [call]
    split
    · rename_i h; rw [h] at hp; exact Ends.plain ⟨_, rfl, hp⟩
    · rename_i h; rw [h] at hp; exact Ends.plain hp
  case compare =>
    have hp := post_compare (env := env) hf
    simp only [call]
    split
    · rename_i h; rw [h] at hp; exact Ends.plain ⟨_, rfl, hp⟩
    · rename_i h; rw [h] at hp; exact Ends.plain hp
  case search =>
    have hp := post_search (env := env) (id := id) hf
    simp only [call]
    split
    · rename_i h; rw [h] at hp; exact ⟨hp.1, fun _ => ⟨_, _, _, _, _, _, _, _, _, rfl⟩, _, rfl, hp.2⟩
    · rename_i h; rw [h] at hp; exact Ends.plain hp
  case add => exact Ends.onHeap (post_add hf)
  case delete => exact Ends.onHeap (post_delete hf hl)
  case extended => exact Ends.onHeap (post_extended hf)
  case modifyDN =>
    have hp := post_modifyDN (env := env) hf
    simp only [call]
    split
    · rename_i h; rw [h] at hp; exact Ends.plain ⟨_, rfl, hp⟩
    · rename_i h; rw [h] at hp; exact Ends.plain hp
  case modify =>
    have hp := post_modify (env := env) hf
    simp only [call]
    split
    · rename_i h; rw [h] at hp; exact Ends.plain ⟨_, rfl, hp⟩
    · rename_i h; rw [h] at hp; exact Ends.plain hp

theorem Answerable.isRequest {request : Obj} (h : Answerable request) : isRequest request = true := by
  cases h <;> rfl

end Verif.Server
