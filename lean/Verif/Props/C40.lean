import Verif.Lemmas.Server
import Verif.Lemmas.ServerBase
/-
C40  Every request gets exactly one final response carrying its id.

Full statement: `answered_once_partial` for every answerable request.  It is false in one case, which the hypothesis
`¬ DeletesNonLeaf` excludes: deleting an entry that has entries below it is never answered (`delete_nonleaf_unanswered`),
because the DistinguishedName object that inmemory.py:75 gives as the message of the exception cannot be encoded.  The
bounds in `Fits` keep responses below the limit of BER lengths.  Abandon requests are answered (`abandon_answered`) although
the protocol has no answer for them.
-/
namespace Verif.C40
open Verif.Ldap Verif.Spec Verif.Server

/-- For every answerable request with a valid message id, whatever the directory, the controls and the bound user: the
server sends search result entries (only if the request is a search) and then exactly one final response of the kind that
belongs to the request; all carry the id of the request. -/
theorem answered_once_partial (env : Env) (luck : Luck) (st : State) (i : Int) (request : Obj)
    (controls : Option (List (PyVal × PyVal × PyVal))) (hi : 0 < i ∧ i < 2 ^ 31) (hr : Answerable request)
    (hf : Fits luck st request controls) (hl : ¬ DeletesNonLeaf env st request) :
    ∃ s entries op, serve env luck st (.message (.int i) request controls) = some s ∧
      s.sent = entries.map (fun o => (PyVal.int i, o)) ++ [(.int i, op.build)] ∧ FinalFor request op ∧
      (∀ o ∈ entries, IsEntry o) ∧
      (entries ≠ [] → ∃ t b s d sl tl ty f as, request = .searchRequest t b s d sl tl ty f as) := by
  obtain ⟨he, hs, hres⟩ := call_ends (id := .int i) hr hf hl
  have h0 : PyVal.int i ≠ .int 0 := by intro h; cases h; omega
  simp only [serve, Answerable.isRequest hr, if_neg h0]
  generalize call env luck st (.int i) request controls = d at he hs hres
  have hfin : ∀ r, Answer request r → ∃ op : Op, final (.int i) r = [(.int i, op.build)] ∧ FinalFor request op := by
    rintro r ⟨op, rfl, hfor, hsz⟩
    exact ⟨op, by simp [final, encodes_op i op ⟨by omega, hi.2⟩ hsz], hfor⟩
  obtain ⟨ds, dl, dr⟩ := d
  cases dr with
  | ok r =>
    obtain ⟨o, rfl, ha⟩ := hres
    obtain ⟨op, h1, h2⟩ := hfin o ha
    exact ⟨_, dl, op, rfl, by simp only [h1], h2, fun o ho => (he o ho).1, hs⟩
  | error f =>
    obtain ⟨b, hm, hb, h1, h2⟩ := hres
    obtain ⟨op, h3, h4⟩ := hfin _ (answer_failWith hr hm hb ⟨h1, h2⟩)
    exact ⟨_, dl, op, rfl, by simp only [h3], h4, fun o ho => (he o ho).1, hs⟩

/-- A history of a connection: the requests handled so far, each as (message id, request, what was sent for it). -/
inductive History (env : Env) : State → List (Int × Obj × List (PyVal × Obj)) → State → Prop where
  | nil (st) : History env st [] st
  | cons {st luck i request controls s rest st'} : serve env luck st (.message (.int i) request controls) = some s →
      Fits luck st request controls → ¬ DeletesNonLeaf env st request →
      History env s.state rest st' → History env st ((i, request, s.sent) :: rest) st'

/-- Is this message the final response of a request, rather than a search result entry? -/
def isFinal : Obj → Bool
  | .searchEntry .. => false
  | _ => true

/-- Over a whole connection the final responses are in one-to-one correspondence with the requests: for every message id
there are exactly as many final responses as there were requests with that id. -/
theorem finals_match_requests_partial (env : Env) (st st' : State) (h : List (Int × Obj × List (PyVal × Obj)))
    (hh : History env st h st') (hreq : ∀ x ∈ h, 0 < x.1 ∧ x.1 < 2 ^ 31 ∧ Answerable x.2.1) (i : Int) :
    ((h.flatMap fun x => x.2.2).filter fun m => m.1 = .int i ∧ isFinal m.2 = true).length =
      (h.filter fun x => x.1 = i).length := by
  induction hh with
  | nil => rfl
  | cons hs hf hl _ ih =>
    rename_i luck j request controls s rest st'' _
    have h1 := hreq _ (List.mem_cons_self)
    obtain ⟨s', entries, op, hs', hsent, hfor, hent, -⟩ :=
      answered_once_partial env luck _ j request controls ⟨h1.1, h1.2.1⟩ h1.2.2 hf hl
    rw [hs] at hs'; cases hs'
    rw [List.flatMap_cons, List.filter_append, List.length_append,
      ih (fun x hx => hreq x (List.mem_cons_of_mem _ hx)), List.filter_cons]
    have hfin : isFinal op.build = true := by cases hfor <;> rfl
    have hno : (entries.map fun o => (PyVal.int j, o)).filter (fun m => m.1 = .int i ∧ isFinal m.2 = true) = [] := by
      rw [List.filter_eq_nil_iff]
      intro m hm
      obtain ⟨o, ho, rfl⟩ := List.mem_map.mp hm
      obtain ⟨n, as, rfl⟩ := hent o ho
      simp [isFinal]
    simp only [hsent, List.filter_append, hno, List.nil_append]
    by_cases hij : j = i
    · subst hij; simp [hfin]; omega
    · simp [hij]

/-- A message with id 0 is not answered and changes nothing. -/
theorem unsolicited_ignored (env : Env) (luck : Luck) (st : State) (request : Obj)
    (controls : Option (List (PyVal × PyVal × PyVal))) (s : Served)
    (h : serve env luck st (.message (.int 0) request controls) = some s) : s.sent = [] ∧ s.state = st := by
  simp only [serve] at h
  split at h
  · cases h; exact ⟨rfl, rfl⟩
  · cases h

/-- Unbind is not answered. -/
theorem unbind_silent (env : Env) (luck : Luck) (st : State) (id : PyVal) (t : UInt8)
    (controls : Option (List (PyVal × PyVal × PyVal))) (s : Served)
    (h : serve env luck st (.message id (.null .unbindRequest t) controls) = some s) : s.sent = [] ∧ s.state = st := by
  simp only [serve, isRequest, if_true, call] at h
  split at h <;> cases h <;> exact ⟨rfl, rfl⟩

/-! Arbitrary handlers. -/
open Verif.ServerBase

/-- The final response to expect when a handler is done: what it returned; an LDAP error as an error response with its code
and message; anything else as an error response with `protocolError` (2).  `fail` makes the error responses. -/
inductive Expected (fail : Obj → Int → Message → Obj) (request : Obj) : Outcome → Obj → Prop where
  | returned (r) : Expected fail request (.returned (some r)) r
  | ldapError (c m) : Expected fail request (.ldapError (some c) m) (fail request c m)
  | noCode (m) : Expected fail request (.ldapError none m) (fail request 2 (.text []))
  | otherError (t) : Expected fail request (.otherError t) (fail request 2 (.text t))

/-- Whatever handlers do and whenever they do it: when the handler of a request is done while the connection is up, with
a response, an LDAP error or any other exception, then over the whole history exactly one final response is sent for that
request, with its message id - provided it can be encoded. -/
theorem one_final (fail : Obj → Int → Message → Obj) (es es' : List Event) (k : Nat) (q : Request) (o : Outcome) (r : Obj)
    (hq : (run fail es).requests[k]? = some q) (hw : q.waiting = true) (hc : (run fail es).connected = true)
    (hr : Expected fail q.request o r) (he : encodes q.id r = true) :
    (run fail (es ++ .finish k o :: es')).sent.filter (fun m => m.k = k ∧ m.final = true) = [⟨k, q.id, r, true⟩] := by
  have hlt : k < (run fail es).requests.length := (List.getElem?_eq_some_iff.mp hq).1
  have hinv := Inv.run (fail := fail) es
  replace hr : answer fail q.request o = some r := by cases hr <;> rfl
  have hstep : step fail (run fail es) (.finish k o) =
      ⟨true, (run fail es).requests.set k { q with waiting := false }, (run fail es).sent ++ [⟨k, q.id, r, true⟩]⟩ := by
    simp [step, hq, hw, hr, send, hc, he]
  have hafter : (step fail (run fail es) (.finish k o)).requests[k]? = some { q with waiting := false } := by
    rw [hstep]; simp [hlt]
  show finals k _ = _
  rw [run_append, List.foldl_cons, finals_after hafter rfl, hstep, finals_append, hinv.waiting k q hq hw]
  simp

/-- Every message sent carries the id of the request it belongs to, and no request with id 0 is ever handled. -/
theorem ids_correct (fail : Obj → Int → Message → Obj) (es : List Event) :
    (∀ m ∈ (run fail es).sent, ∃ q, (run fail es).requests[m.k]? = some q ∧ q.id = m.id) ∧
      ∀ q ∈ (run fail es).requests, q.id ≠ .int 0 :=
  ⟨(Inv.run es).ids, fun q hq => ((Inv.run es).nonzero q hq).1⟩

/-- As long as its handler is not done, a request has no final response. -/
theorem unfinished_unanswered (fail : Obj → Int → Message → Obj) (es : List Event) (k : Nat) (q : Request)
    (hq : (run fail es).requests[k]? = some q) (hw : q.waiting = true) :
    ∀ m ∈ (run fail es).sent, m.k = k → m.final = false := by
  intro m hm hk
  have := (Inv.run (fail := fail) es).waiting k q hq hw
  simp only [finals, List.filter_eq_nil_iff] at this
  have := this m hm
  simpa [hk] using this

/-! Witnesses. -/

def env : Env := ⟨asciiTables, fun b => (b ++ List.replicate 20 0).take 20, true, true⟩
def luck : Luck := ⟨[1, 2], fun _ => []⟩

/-- `dc=a`, with `cn=b` below it, and `cn=c` below that. -/
def heap : Tree.Heap :=
  [⟨⟨[[⟨['d','c'], ['a']⟩]], []⟩, none, [(['c','n','=','b'], 1)]⟩,
   ⟨⟨[[⟨['c','n'], ['b']⟩], [⟨['d','c'], ['a']⟩]], []⟩, some 0, [(['c','n','=','c'], 2)]⟩,
   ⟨⟨[[⟨['c','n'], ['c']⟩], [⟨['c','n'], ['b']⟩], [⟨['d','c'], ['a']⟩]], []⟩, some 1, []⟩]

def st : State := ⟨heap, none⟩

/-- The ids and result codes sent; `none` for entries. -/
def codes (s : Option Served) : Option (List (PyVal × Option PyVal)) :=
  s.map fun s => s.sent.map fun m => (m.1, match m.2 with
    | .result _ _ c _ _ _ => some c
    | .extResponse _ c _ _ _ _ => some c
    | _ => none)

/-- The violation: deleting an entry that is not a leaf gets no answer at all. -/
theorem delete_nonleaf_unanswered :
    ∃ s, serve env luck st (.message (.int 7) (.oct .delRequest 0x4A (ascii "cn=b,dc=a")) none) = some s ∧ s.sent = [] ∧
      s.state = st := by
  have h : codes (serve env luck st (.message (.int 7) (.oct .delRequest 0x4A (ascii "cn=b,dc=a")) none)) = some [] ∧
      ((serve env luck st (.message (.int 7) (.oct .delRequest 0x4A (ascii "cn=b,dc=a")) none)).map
        fun s => decide (s.state = st)) = some true := by decide +kernel
  obtain ⟨h1, h2⟩ := h
  generalize serve env luck st (.message (.int 7) (.oct .delRequest 0x4A (ascii "cn=b,dc=a")) none) = r at h1 h2
  cases r with
  | none => simp [codes] at h1
  | some s =>
    refine ⟨s, rfl, ?_, ?_⟩
    · simp only [codes, Option.map_some, Option.some.injEq, List.map_eq_nil_iff] at h1; exact h1
    · simpa using h2

/-- Abandon requests are answered with an extended response. -/
theorem abandon_answered :
    codes (serve env luck st (.message (.int 7) (.int .abandonRequest 0x50 3) none)) = some [(.int 7, some (.int 2))] := by
  decide +kernel

/-- The hypotheses of `answered_once_partial` hold for deleting the leaf; it is deleted and answered. -/
example : Answerable (.oct .delRequest 0x4A (ascii "cn=c,cn=b,dc=a")) ∧
    Fits luck st (.oct .delRequest 0x4A (ascii "cn=c,cn=b,dc=a")) none ∧
    ¬ DeletesNonLeaf env st (.oct .delRequest 0x4A (ascii "cn=c,cn=b,dc=a")) ∧
    codes (serve env luck st (.message (.int 7) (.oct .delRequest 0x4A (ascii "cn=c,cn=b,dc=a")) none)) =
      some [(.int 7, some (.int 0))] := by
  refine ⟨.delete, ⟨?_, ?_, ?_, ?_, ?_⟩, ?_, by decide +kernel⟩
  · intro e; simp [Fit, luck]
  · intro n hn
    simp only [st, heap, List.mem_cons, List.not_mem_nil, or_false] at hn
    rcases hn with rfl | rfl | rfl <;> unfold Fit <;> decide +kernel
  · intro cs hcs; cases hcs
  · intro t n v h; cases h
  · intro t v d a h; cases h
  · rintro ⟨t, v, s, d, i, n, hv, hs, hd, hi, hn, -, hc⟩
    cases hv
    have hs' : s = "cn=c,cn=b,dc=a".toList := by
      have : Utf8.decode (ascii "cn=c,cn=b,dc=a") = .ok "cn=c,cn=b,dc=a".toList := by decide +kernel
      rw [this] at hs; cases hs; rfl
    subst hs'
    have hd' : Dn.Dn.parse env.U "cn=c,cn=b,dc=a".toList = .ok (Tree.dnOf heap 2) := by decide +kernel
    rw [hd'] at hd; cases hd
    have hi' : Tree.lookup env.U st.heap 0 (Tree.dnOf heap 2) = .ok 2 := by decide +kernel
    rw [hi'] at hi; cases hi
    simp only [st, heap, List.getElem?_cons_succ, List.getElem?_cons_zero, Option.some.injEq] at hn
    rw [← hn] at hc
    exact hc rfl

/-- Errors are answered too: no such entry, a bad version, an unknown extension, a search with entries. -/
example :
    codes (serve env luck st (.message (.int 7) (.oct .delRequest 0x4A (ascii "cn=x,dc=a")) none)) =
      some [(.int 7, some (.int 32))] ∧
    codes (serve env luck st (.message (.int 8) (.bind 0x40 (.int 2) (.bytes []) (.simple (.bytes []))) none)) =
      some [(.int 8, some (.int 2))] ∧
    codes (serve env luck st (.message (.int 9) (.extRequest 0x57 (.bytes [0x31]) .none) none)) =
      some [(.int 9, some (.int 2))] ∧
    codes (serve env luck st (.message (.int 10) (.searchRequest 0x43 (.bytes (ascii "cn=b,dc=a")) (.int 2) (.int 0) (.int 0)
      (.int 0) (.int 0) (.seq .fAnd 0x80 []) []) none)) = some [(.int 10, none), (.int 10, none), (.int 10, some (.int 0))] := by
  decide +kernel

/-- The hypotheses of `one_final` hold: two requests, the second is done first. -/
example : ∃ es q,
    (run failWith es).requests[1]? = some q ∧ q.waiting = true ∧ (run failWith es).connected = true ∧ q.id = .int 2 ∧
    encodes q.id (failWith q.request 2 (.text [])) = true :=
  ⟨[.made, .received (.int 1) (.oct .delRequest 0x4A []), .received (.int 2) (.oct .delRequest 0x4A [])],
    ⟨.int 2, .oct .delRequest 0x4A [], true⟩, rfl, rfl, rfl, rfl, by decide +kernel⟩

end Verif.C40
