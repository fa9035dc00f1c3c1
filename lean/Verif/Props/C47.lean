import Verif.Props.C45
import Verif.Lemmas.Server
import Verif.Lemmas.Merger
/-
C47: the proxy releases a request after its final response.

This holds for searches and binds only (`released_partial`): a LDAPSearchResultDone or a LDAPBindResponse takes the
request off the wire for ever.  No other response does (`kept`), so the final responses of additions, deletions,
modifications, comparisons and extended requests do not: after `n` answered deletions the proxy keeps `n` requests
(`leak`), for every `n` up to the largest message id.
-/
namespace Verif.C47
open Verif.Ldap Verif.Server Verif.ProxyBase Verif.Spec.ProxyBase
open Verif.Merger (isFinal final_iff)
open Verif.Spec.Merger (Final)
open Verif.Spec (Op ResultKind)
open Verif.Client (Controls isResponse needsAnswer)

/-- The wire after a response. -/
theorem response_onwire (H : Hooks) (s : St) (m : Int) (op : Obj) :
    (response H s m op).nextId = s.nextId ∧ (response H s m op).onwire =
      if (s.upConnected && isResponse op && isFinal op) = true ∧ (∃ r, s.onwire.lookup m = some r ∧ r < s.requests.length)
      then s.onwire.filter fun e => e.1 ≠ m else s.onwire := by
  unfold response
  split
  · rename_i hup
    cases ho : s.onwire.lookup m with
    | none => simp
    | some r =>
      simp only
      cases hq : s.requests[r]? with
      | none =>
        have : ¬ r < s.requests.length := by have := List.getElem?_eq_none_iff.mp hq; omega
        simp [this]
      | some q =>
        have hlt := C45.lt_of_some hq
        have h1 : ∀ (c : List Called) (l d : List Nat),
            (if q.dseq = [] then drain { s with hooks := c } r q l else setRequest { s with hooks := c } r { q with dseq := d }).onwire = s.onwire ∧
            (if q.dseq = [] then drain { s with hooks := c } r q l else setRequest { s with hooks := c } r { q with dseq := d }).nextId = s.nextId := by
          intro c l d
          split
          · obtain ⟨_, _, _, e, _⟩ := drain_rest (q := q) (r := r) l { s with hooks := c }
            rw [e]
            exact ⟨rfl, rfl⟩
          · exact ⟨rfl, rfl⟩
        obtain ⟨a, b⟩ := h1 (s.hooks ++ [⟨r, op, (H.after s.hooks.length op).state⟩]) [s.hooks.length] (q.dseq ++ [s.hooks.length])
        simp only
        generalize (if q.dseq = [] then
            drain { s with hooks := s.hooks ++ [⟨r, op, (H.after s.hooks.length op).state⟩] } r q [s.hooks.length]
          else setRequest { s with hooks := s.hooks ++ [⟨r, op, (H.after s.hooks.length op).state⟩] } r
            { q with dseq := q.dseq ++ [s.hooks.length] }) = s' at a b
        cases hf : isFinal op with
        | true =>
          have hc : (s.upConnected && isResponse op && true) = true ∧ ∃ r', some r = some r' ∧ r' < s.requests.length :=
            ⟨by simp [hup], r, rfl, hlt⟩
          rw [if_pos hc]
          exact ⟨b, by show s'.onwire.filter _ = _; rw [a]⟩
        | false =>
          rw [if_neg (by simp), if_neg (by simp)]
          exact ⟨b, a⟩
  · rename_i hup
    have : (s.upConnected && isResponse op) = false := by simpa using hup
    simp [this]

theorem hook_onwire (s : St) (d : Nat) (x : Option (Option Obj)) : (hook s d x).onwire = s.onwire ∧ (hook s d x).nextId = s.nextId := by
  unfold hook
  split
  · simp only
    split
    · exact ⟨rfl, rfl⟩
    · rename_i r op _ _ q _
      split
      · obtain ⟨_, _, _, e, _⟩ := drain_rest (q := q) (r := r) q.dseq { s with hooks := s.hooks.set d ⟨r, op, fires x⟩ }
        rw [e]
        exact ⟨rfl, rfl⟩
      · exact ⟨rfl, rfl⟩
  · exact ⟨rfl, rfl⟩

/-- All message ids on the wire have been used. -/
def Used (s : St) : Prop := ∀ m r, (m, r) ∈ s.onwire → m < s.nextId

/-- What any step may do to the wire. -/
theorem step_wire (H : Hooks) (s : St) (e : Event) : s.nextId ≤ (step H s e).nextId ∧
    ∀ m r, (m, r) ∈ (step H s e).onwire → (m, r) ∈ s.onwire ∨ (s.nextId ≤ m ∧ m < (step H s e).nextId) := by
  by_cases h1 : ∃ m op, e = .response m op
  · obtain ⟨m, op, rfl⟩ := h1
    obtain ⟨a, b⟩ := response_onwire H s m op
    show s.nextId ≤ (response H s m op).nextId ∧ ∀ m' r, (m', r) ∈ (response H s m op).onwire → _
    refine ⟨by rw [a]; exact Int.le_refl _, fun m' r hm => .inl ?_⟩
    rw [b] at hm
    split at hm
    · exact (List.mem_filter.mp hm).1
    · exact hm
  by_cases h2 : ∃ d x, e = .hook d x
  · obtain ⟨d, x, rfl⟩ := h2
    obtain ⟨a, b⟩ := hook_onwire s d x
    show s.nextId ≤ (hook s d x).nextId ∧ ∀ m r, (m, r) ∈ (hook s d x).onwire → _
    rw [a, b]
    exact ⟨Int.le_refl _, fun m r hm => .inl hm⟩
  by_cases h3 : e = .lost
  · subst h3
    exact ⟨Int.le_refl _, fun m r hm => .inl hm⟩
  have f := frame_step H s e (fun m op he => h1 ⟨m, op, he⟩) (fun d x he => h2 ⟨d, x, he⟩) h3
  exact ⟨f.next, f.wire⟩

theorem used_run (H : Hooks) : ∀ (es : List Event) (s : St), Used s → Used (run H s es)
  | [], _, h => h
  | e :: es, s, h => by
    refine used_run H es (step H s e) fun m r hm => ?_
    obtain ⟨a, b⟩ := step_wire H s e
    rcases b m r hm with hm | hm
    · exact Int.lt_of_lt_of_le (h m r hm) a
    · exact hm.2

/-- A message id that is free stays free. -/
theorem free_run (H : Hooks) (m : Int) : ∀ (es : List Event) (s : St), m < s.nextId → (∀ r, (m, r) ∉ s.onwire) →
    ∀ r, (m, r) ∉ (run H s es).onwire
  | [], _, _, h => h
  | e :: es, s, hm, h => by
    obtain ⟨a, b⟩ := step_wire H s e
    refine free_run H m es (step H s e) (Int.lt_of_lt_of_le hm a) fun r hr => ?_
    rcases b m r hr with hr | hr
    · exact h r hr
    · omega

/-- **Searches and binds are released.**  When the proxied server has sent a LDAPSearchResultDone or a LDAPBindResponse
for a request that is on the wire, the request is off the wire, now and for ever. -/
theorem released_partial (H : Hooks) (u o : Bool) (es es' : List Event) (m : Int) (r : Nat) (op : Obj) (hop : Final op)
    (hup : (run H (start u o) es).upConnected = true) (hm : (m, r) ∈ (run H (start u o) es).onwire) :
    ∀ r', (m, r') ∉ (run H (start u o) (es ++ .response m op :: es')).onwire := by
  have e : run H (start u o) (es ++ .response m op :: es') = run H (step H (run H (start u o) es) (.response m op)) es' := by simp [run]
  rw [e]
  have hu := used_run H es (start u o) (by simp [Used, start])
  have hr := (Valid.run (H := H) es (valid_start u o)).onwire
  generalize run H (start u o) es = s at hup hm hr hu
  obtain ⟨a, b⟩ := response_onwire H s m op
  have hresp : isResponse op = true := by
    obtain ⟨_, _, _, _, _, rfl | rfl⟩ := hop <;> rfl
  have hl : ∃ r', s.onwire.lookup m = some r' ∧ r' < s.requests.length := by
    cases hl : s.onwire.lookup m with
    | none =>
      rw [List.lookup_eq_none_iff] at hl
      have := hl (m, r) hm
      simp at this
    | some r' =>
      refine ⟨r', rfl, ?_⟩
      rw [List.lookup_eq_some_iff] at hl
      obtain ⟨l1, l2, hl, _⟩ := hl
      exact hr m r' (by rw [hl]; simp)
  refine free_run H m es' (step H s (.response m op)) ?_ ?_
  · show m < (response H s m op).nextId
    rw [a]
    exact hu m r hm
  · intro r' hr'
    replace hr' : (m, r') ∈ (response H s m op).onwire := hr'
    rw [b, if_pos ⟨by simp [hup, hresp, (final_iff op).mpr hop], hl⟩] at hr'
    have := (List.mem_filter.mp hr').2
    simp at this

/-- **No other response releases anything.** -/
theorem kept (H : Hooks) (s : St) (m : Int) (op : Obj) (h : ¬ Final op) : (step H s (.response m op)).onwire = s.onwire := by
  show (response H s m op).onwire = _
  rw [(response_onwire H s m op).2, if_neg]
  rintro ⟨h1, -⟩
  simp only [Bool.and_eq_true] at h1
  exact h ((final_iff op).mp h1.2)

/-! ### The leak -/

/-- Hooks that change nothing, as in `ProxyBase` itself (proxybase.py:147-155, 180-185). -/
def plain : Hooks := ⟨fun _ op c => .now [] (some (op, c)), fun _ op => .now (some op)⟩

def delete : Obj := (Op.delete []).build
def deleted : Obj := (Op.result .delete 0 [] []).build

/-- `n` deletions of the client, each of them answered at once. -/
def deletions : Nat → List Event
  | 0 => [.up]
  | n + 1 => deletions n ++ [.request (.int (n + 1)) delete none, .response (n + 1) deleted]

theorem delete_encodes (i : Int) (hi : 0 ≤ i ∧ i < 2 ^ 31) : encodes (.int i) delete = true := encodes_op i _ hi (by decide)
theorem deleted_encodes (i : Int) (hi : 0 ≤ i ∧ i < 2 ^ 31) : encodes (.int i) deleted = true := encodes_op i _ hi (by decide)

structure Leaked (s : St) (n : Nat) : Prop where
  conn : s.connected = true
  client : s.client = true
  up : s.upConnected = true
  next : s.nextId = n + 1
  requests : s.requests.length = n
  wire : s.onwire = (List.range n).map fun (k : Nat) => ((k : Int) + 1, k)
  wrote : s.wrote = (List.range n).map fun (k : Nat) => ((k : Int) + 1, k, delete, none)
  sent : s.sent = (List.range n).map fun k => ⟨k, true, .int (k + 1), deleted⟩

theorem lookup_new {n : Nat} : ∀ {l : List (Int × Nat)} {r : Nat}, (∀ e ∈ l, e.1 < (n : Int) + 1) →
    (l ++ [((n : Int) + 1, r)]).lookup ((n : Int) + 1) = some r
  | [], r, _ => by simp
  | e :: l, r, h => by
    have h1 := h e (List.mem_cons_self ..)
    rw [List.cons_append, List.lookup_cons]
    have : ((n : Int) + 1 == e.1) = false := by simp; omega
    rw [this]
    exact lookup_new fun e' he' => h e' (List.mem_cons_of_mem _ he')

theorem leaked (u o : Bool) (hu : u = false) : ∀ n : Nat, n < 2 ^ 31 - 1 → Leaked (run plain (start u o) (deletions n)) n
  | 0, _ => by
    subst hu
    refine ⟨?_, ?_, ?_, ?_, ?_, ?_, ?_, ?_⟩ <;> simp [deletions, run, step, start, ProxyBase.up, backlog]
  | n + 1, hn => by
    have h := leaked u o hu n (by omega)
    have e : run plain (start u o) (deletions (n + 1)) =
        step plain (step plain (run plain (start u o) (deletions n)) (.request (.int (n + 1)) delete none)) (.response (n + 1) deleted) := by
      simp [deletions, run]
    rw [e]
    generalize run plain (start u o) (deletions n) = s at h
    obtain ⟨h1, h2, h3, h4, h5, h6, h7, h8⟩ := h
    have hd := delete_encodes (n + 1) (by omega)
    have hd' := deleted_encodes (n + 1) (by omega)
    have s1 : step plain s (.request (.int (n + 1)) delete none) =
        { s with requests := s.requests ++ [⟨.int (n + 1), [], false, false⟩], nextId := s.nextId + 1,
                 onwire := s.onwire ++ [((n : Int) + 1, n)], wrote := s.wrote ++ [((n : Int) + 1, n, delete, none)] } := by
      show (if s.connected && isRequest delete && PyVal.int (n + 1) ≠ .int 0 then receive plain s (.int (n + 1)) delete none else s) = _
      rw [if_pos (by rw [h1]; simp [delete, Op.build, isRequest]; omega)]
      rw [← h4] at hd
      unfold delete at hd
      simp only [Op.build] at hd
      simp only [receive, delete, Op.build, forward, h2, ask, plain, replyAll, forwardit, h3, needsAnswer, Bool.and_self, if_true, h5]
      rw [if_pos hd, h4]
    rw [s1]
    have hlk : (s.onwire ++ [((n : Int) + 1, n)]).lookup ((n : Int) + 1) = some n := by
      refine lookup_new fun e he => ?_
      rw [h6] at he
      obtain ⟨k, hk, rfl⟩ := List.mem_map.mp he
      have := List.mem_range.mp hk
      show (k : Int) + 1 < n + 1
      omega
    have hq : (s.requests ++ [(⟨.int (n + 1), [], false, false⟩ : Request)])[n]? = some ⟨.int (n + 1), [], false, false⟩ := by
      rw [List.getElem?_append_right (by omega), h5]
      simp
    have hh : (s.hooks ++ [(⟨n, deleted, .fired (some deleted)⟩ : Called)])[s.hooks.length]? = some ⟨n, deleted, .fired (some deleted)⟩ := by simp
    have s2 : ∀ s1 : St, s1 = { s with requests := s.requests ++ [⟨.int (n + 1), [], false, false⟩], nextId := s.nextId + 1, onwire := s.onwire ++ [((n : Int) + 1, n)], wrote := s.wrote ++ [((n : Int) + 1, n, delete, none)] } → step plain s1 (.response (n + 1) deleted) =
          { s1 with requests := s1.requests.set n ⟨.int (n + 1), [], false, false⟩, hooks := s1.hooks ++ [⟨n, deleted, .fired (some deleted)⟩], sent := s1.sent ++ [⟨n, true, .int (n + 1), deleted⟩] } := by
      rintro s1 rfl
      show response plain _ _ _ = _
      unfold response
      rw [if_pos (by simp [h3, deleted, Op.build, isResponse])]
      have hnf : isFinal deleted = false := rfl
      have hok : (s.connected && encodes (.int (n + 1)) deleted) = true := by simp [h1, hd']
      simp only [hlk, hq, if_true, plain, After.state, drain, hh, reply, hok, hnf, setRequest, Bool.false_eq_true, if_false]
    rw [s2 _ rfl]
    refine ⟨h1, h2, h3, ?_, ?_, ?_, ?_, ?_⟩
    · show s.nextId + 1 = _
      rw [h4]
      simp
    · simp [h5]
    · show s.onwire ++ [((n : Int) + 1, n)] = _
      rw [h6, List.range_succ]; simp
    · show s.wrote ++ [((n : Int) + 1, n, delete, none)] = _
      rw [h7, List.range_succ]; simp
    · show s.sent ++ [⟨n, true, .int (n + 1), deleted⟩] = _
      rw [h8, List.range_succ]; simp

/-- **The proxy keeps requests whose final response it has relayed**: after `n` deletions, all forwarded and all answered
to the client with the response of the proxied server, `n` requests are pending.  So the full statement does not hold. -/
theorem leak (n : Nat) (hn : n < 2 ^ 31 - 1) :
    let s := run plain (start false false) (deletions n)
    (s.wrote.map fun w => w.2.2.1) = List.replicate n delete ∧
    (∀ k, k < n → toClient k s.sent = [(.int (k + 1), deleted)]) ∧
    s.onwire.length = n := by
  intro s
  have h : Leaked s n := leaked false false rfl n hn
  refine ⟨?_, ?_, by rw [h.wire]; simp⟩
  · rw [h.wrote, List.map_map]
    exact List.eq_replicate_iff.mpr ⟨by simp, by simp⟩
  · intro k hk
    unfold toClient
    rw [h.sent]
    have : ∀ n, k < n → ((List.range n).map fun k => (⟨k, true, .int (k + 1), deleted⟩ : Sent)).filter (fun m => m.r = k) =
        [⟨k, true, .int (k + 1), deleted⟩] := by
      intro n
      induction n with
      | zero => intro h; omega
      | succ n ih =>
        intro hk
        rw [List.range_succ, List.map_append, List.filter_append]
        by_cases h : k < n
        · rw [ih h]
          have : n ≠ k := by omega
          simp [this]
        · have : k = n := by omega
          subst this
          have e : ((List.range k).map fun k => (⟨k, true, .int (k + 1), deleted⟩ : Sent)).filter (fun m => m.r = k) = [] := by
            rw [List.filter_eq_nil_iff]
            intro m hm
            obtain ⟨j, hj, rfl⟩ := List.mem_map.mp hm
            have := List.mem_range.mp hj
            simp
            omega
          rw [e]
          simp
    rw [this n hk]
    rfl

/-- The deletion's response is final for the client, but not for the proxy. -/
example : ¬ Final deleted := by
  rintro ⟨_, _, _, _, _, h | h⟩ <;> simp [deleted, Op.build, ResultKind.cls] at h

/-- The hypotheses of `released_partial` can be met. -/
example : (run C45.slow (start false false) [.up, .request (.int 7) C45.look none]).upConnected = true ∧
    (1, 0) ∈ (run C45.slow (start false false) [.up, .request (.int 7) C45.look none]).onwire ∧ Final C45.done := by
  have h := C45.look_encodes
  unfold C45.look at h
  refine ⟨?_, ?_, _, _, _, _, _, .inl rfl⟩ <;>
  simp [C45.slow, C45.look, run, step, start, up, backlog, receive, forward, ask, replyAll, forwardit, needsAnswer, isRequest, h]

end Verif.C47
