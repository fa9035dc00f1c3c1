import Verif.Lemmas.ClientSent
import Mathlib.Data.List.Induction
/-
C37  Each response reaches exactly the request it answers, once.

That responses with unknown ids disturb nobody is false: the exception makes Twisted drop the connection, see
`unknown_id_disturbs`.  The rest holds.
-/
namespace Verif.C37
open Verif.Ldap Verif.Client Verif.Spec.Client

theorem run_snoc (app : App) (fuel : Nat) (es : List Event) (e : Event) :
    run app fuel (es ++ [e]) = step app fuel (run app fuel es) e := by
  unfold run; rw [List.foldl_append]; rfl

/-- Every Deferred delivers at most one result. -/
theorem fires_once (app : App) (fuel : Nat) (es : List Event) (d : Nat) : timesFired d (run app fuel es).log ≤ 1 := by
  rw [(run_inv app fuel es).fired_count d]
  cases (run app fuel es).deferreds[d]? with
  | none => simp [expected]
  | some s => cases s <;> simp [expected]

/-- The table of a client holds exactly the requests that are waiting for an answer. -/
theorem table_waiting (app : App) (fuel : Nat) (es : List Event) (c : Nat) (id : Int) (p : Pending) :
    (id, p) ∈ ((run app fuel es).conns c).onwire ↔ Waiting (run app fuel es).log c id p :=
  (run_inv app fuel es).wire_waiting c id p

/-- A response with the id of a waiting request is delivered to this request, and apart from that only things happen
that the application does; without a handler the request is complete afterwards. -/
theorem response_delivered (app : App) (fuel : Nat) (es : List Event) (c : Nat) (id : Int) (p : Pending) (op : Obj)
    (controls : Controls) (hw : Waiting (run app fuel es).log c id p) (ho : Response op) :
    ∃ a l, (run app fuel (es ++ [.received c (.message (.int id) op controls)])).log = (run app fuel es).log ++ a ++ l ∧
      Answer (run app fuel es).log c p op controls a ∧ (∀ n ∈ l, Own n ∨ (p.handler = true ∧ n = .finished p.d)) ∧
      (p.handler = false →
        ¬ Waiting (run app fuel (es ++ [.received c (.message (.int id) op controls)])).log c id p) := by
  rw [run_snoc]
  have hi := run_inv app fuel es
  have hid : id ≠ 0 := by
    have := (hi.made_lt _ (hi.req_lt _ hw.1)).1
    simp only at this; omega
  obtain ⟨_, _, a, l, h1, h2, h3, h4⟩ := handle_waiting app fuel hi ((hi.wire_waiting c id p).mpr hw) controls
    ((isResponse_iff op).mpr ho) hid
  exact ⟨a, l, h1, h2, h4, fun hh hw' => hw'.2 (h3 hh)⟩

/-- Whenever a Deferred or a handler is told about a response, a response with the id of this request has just arrived on
its connection while the request was waiting. -/
theorem delivered_only_to_own (app : App) (fuel : Nat) (es : List Event) (e : Event) (d : Nat) :
    ∃ l, (run app fuel (es ++ [e])).log = (run app fuel es).log ++ l ∧ ∀ n ∈ l, Delivers d n →
      ∃ c id p op controls, e = .received c (.message (.int id) op controls) ∧ Response op ∧
        Waiting (run app fuel es).log c id p ∧ p.d = d := by
  rw [run_snoc]
  obtain ⟨l, hlog, hl⟩ := step_notes app fuel (run_inv app fuel es) e
  refine ⟨l, hlog, fun n hn hd => ?_⟩
  cases hl n hn with
  | own h =>
    exfalso
    cases n with
    | fired d' o => cases o <;> first | exact hd.elim | exact h.elim
    | _ => first | exact hd.elim | exact h.elim
  | answer he hr hw ha hn' =>
    refine ⟨_, _, _, _, _, he, hr, hw, ?_⟩
    cases ha <;> simp only [List.mem_cons, List.not_mem_nil, or_false] at hn'
    all_goals first
      | (subst hn'; exact hd)
      | (subst hn'; exact hd.elim)
      | (rcases hn' with rfl | rfl
         · exact hd.elim
         · exact hd)
  | finished he hw hh => exact hd.elim
  | unsolicited he => exact hd.elim
  | lost he hw hn' => rcases hn' with rfl | rfl <;> exact hd.elim
  | tls he hx hn' => rcases hn' with rfl | rfl | rfl <;> exact hd.elim
  | startTLS he hx hi hc => exact hd.elim

/-- A response with an id for which no request is waiting is delivered to nobody and changes nothing (but it raises). -/
theorem unknown_id (app : App) (fuel : Nat) (es : List Event) (c : Nat) (id : Int) (op : Obj) (controls : Controls)
    (hid : id ≠ 0) (hw : ∀ p, ¬ Waiting (run app fuel es).log c id p) :
    run app fuel (es ++ [.received c (.message (.int id) op controls)]) = run app fuel es := by
  rw [run_snoc]
  have hi := run_inv app fuel es
  rcases handle_other app fuel (w := run app fuel es) c (.message (.int id) op controls) (fun i o cs e _ _ p hp => by
      simp only [Obj.message.injEq, PyVal.int.injEq] at e
      rw [← e.1] at hp
      exact hw p ((hi.wire_waiting c id p).mp hp)) with ⟨_, _, e, _, _⟩ | ⟨_, e⟩
  · simp only [Obj.message.injEq, PyVal.int.injEq] at e
    exact absurd e.1 hid
  · simp only [step, e]

theorem log_prefix (app : App) (fuel : Nat) (es es' : List Event) :
    ∃ l, (run app fuel (es ++ es')).log = (run app fuel es).log ++ l := by
  induction es' using List.reverseRecOn with
  | nil => exact ⟨[], by simp⟩
  | append_singleton es' e ih =>
    obtain ⟨l, hl⟩ := ih
    obtain ⟨m, hm, _⟩ := step_notes app fuel (run_inv app fuel (es ++ es')) e
    exact ⟨l ++ m, by rw [← List.append_assoc, run_snoc, hm, hl, List.append_assoc]⟩

/-- Once a request is complete it stays complete: its id is forgotten, and no later response is delivered to it. -/
theorem completed_forever (app : App) (fuel : Nat) (es es' : List Event) (c : Nat) (id : Int) (p : Pending)
    (hr : (c, id, p) ∈ requests (run app fuel es).log) (hc : Completed (run app fuel es).log p.d) :
    ∀ c' p', ¬ Waiting (run app fuel (es ++ es')).log c' id p' := by
  intro c' p' hw
  obtain ⟨l, hl⟩ := log_prefix app fuel es es'
  have hr' : (c, id, p) ∈ requests (run app fuel (es ++ es')).log := by
    rw [hl, requests_append]; exact List.mem_append_left _ hr
  have := sorted_unique (run_inv app fuel (es ++ es')).req_sorted hr' hw.1 rfl
  simp only [Prod.mk.injEq] at this
  refine hw.2 ?_
  rw [← this.2.2, hl, completed_append]
  exact .inl hc

/-- The final response of a request with a handler completes it. -/
theorem finished_completes (app : App) (fuel : Nat) (es : List Event) (d : Nat) (h : .finished d ∈ (run app fuel es).log) :
    Completed (run app fuel es).log d := .inr h

/-- A delete request waits with id 1 and an entry result for id 7 arrives. -/
def unknownHistory : List Event := [.made 0, .app (.send 0 (.oct .delRequest 0x4a []) none)]
def quiet : App := fun _ => ⟨[], false, false⟩
def strayResponse : Obj := .message (.int 7) (.result .delResponse 0x4b (.int 0) (.bytes []) (.bytes []) .none) none

example : Waiting (run quiet 0 unknownHistory).log 0 1 ⟨0, false, false, .plain⟩ := by
  refine (table_waiting quiet 0 unknownHistory 0 1 _).mp ?_
  have : ((run quiet 0 unknownHistory).conns 0).onwire = [(1, ⟨0, false, false, .plain⟩)] := by decide +kernel
  rw [this]; simp

/-- "Responses with unknown ids disturb nobody" is false: the request that is waiting has not been answered, the response
for another id makes `handle` raise - so the connection is dropped - and with the loss of the connection the waiting
request fails. -/
theorem unknown_id_disturbs :
    Waiting (run quiet 0 unknownHistory).log 0 1 ⟨0, false, false, .plain⟩ ∧
    (handle quiet 0 (run quiet 0 unknownHistory) 0 strayResponse).2 = true ∧
    .fired 0 .lost ∈ (run quiet 0 (unknownHistory ++ [.received 0 strayResponse, .lost 0])).log := by
  refine ⟨?_, by decide +kernel, ?_⟩
  · refine (table_waiting quiet 0 unknownHistory 0 1 _).mp ?_
    have : ((run quiet 0 unknownHistory).conns 0).onwire = [(1, ⟨0, false, false, .plain⟩)] := by decide +kernel
    rw [this]; simp
  · have h : (run quiet 0 (unknownHistory ++ [.received 0 strayResponse, .lost 0])).log.any (fun n =>
        match n with | .fired 0 .lost => true | _ => false) = true := by decide +kernel
    obtain ⟨n, hn, hx⟩ := List.any_eq_true.mp h
    split at hx
    · exact hn
    · simp at hx

/-- Nobody is made to wait for an answer that never comes: what is waiting for an answer is a request of a kind that is
answered. -/
theorem asked (app : App) (fuel : Nat) (es : List Event) (c : Nat) (id : Int) (p : Pending) (op : Obj)
    (h : .sent c id p op ∈ (run app fuel es).log) : Asks op := by
  have := (run_answered app fuel es).all _ h c id p op rfl
  revert this
  unfold needsAnswer Asks
  split <;> split <;> simp_all

example : .sent 0 1 ⟨0, false, false, .plain⟩ (.oct .delRequest 0x4a []) ∈ (run quiet 0 unknownHistory).log := by
  have h : (run quiet 0 unknownHistory).log.any (fun n =>
      match n with | .sent 0 1 ⟨0, false, false, .plain⟩ (.oct .delRequest 0x4a []) => true | _ => false) = true := by decide +kernel
  obtain ⟨n, hn, hx⟩ := List.any_eq_true.mp h
  split at hx
  · exact hn
  · simp at hx

end Verif.C37
