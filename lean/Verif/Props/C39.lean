import Verif.Props.C37
import Verif.Lemmas.Conn
/-
C39  StartTLS only happens on an idle connection and after the server agreed.
(C64 is about what is received in the same segment.)
-/
namespace Verif.C39
open Verif.Ldap Verif.Client Verif.Spec.Client

/-- The request of `startTLS()` is sent only while no request is waiting on the connection. -/
theorem asked_when_idle (app : App) (fuel : Nat) (es : List Event) (e : Event) :
    ∃ l, (run app fuel (es ++ [e])).log = (run app fuel es).log ++ l ∧
      ∀ c id p op, .sent c id p op ∈ l → p.chain = .startTLS →
        e = .tick ∧ op = startTLSRequest ∧ ∀ id' p', ¬ Waiting (run app fuel es).log c id' p' := by
  rw [C37.run_snoc]
  obtain ⟨l, hlog, hl⟩ := step_notes app fuel (run_inv app fuel es) e
  refine ⟨l, hlog, fun c id p op hn hp => ?_⟩
  generalize hx : Note.sent c id p op = n at hn
  cases hl n hn with
  | own h => subst hx; exact absurd hp h
  | answer he hr hw ha hn' =>
    exfalso; subst hx
    cases ha <;> simp at hn'
  | finished he hw hh => cases hx
  | unsolicited he => cases hx
  | lost he hw hn' => subst hx; rcases hn' with h | h <;> cases h
  | tls he hd hn' => subst hx; rcases hn' with h | h | h <;> cases h
  | startTLS he hd hi hc => cases hx; exact ⟨he, rfl, hi⟩

/-- TLS is switched on only when a positive response to a waiting request of `startTLS()` has just arrived on that
connection, and the application has not cancelled it; then exactly once. -/
theorem tls_after_agreement (app : App) (fuel : Nat) (es : List Event) (e : Event) :
    ∃ l, (run app fuel (es ++ [e])).log = (run app fuel es).log ++ l ∧
      ∀ c, .startedTLS c ∈ l → ∃ id p op controls, e = .received c (.message (.int id) op controls) ∧
        Waiting (run app fuel es).log c id p ∧ p.chain = .startTLS ∧ Agrees op ∧
        ¬ Cancelled (run app fuel es).log p.d := by
  rw [C37.run_snoc]
  obtain ⟨l, hlog, hl⟩ := step_notes app fuel (run_inv app fuel es) e
  refine ⟨l, hlog, fun c hn => ?_⟩
  generalize hx : Note.startedTLS c = n at hn
  cases hl n hn with
  | own h => subst hx; exact h.elim
  | answer he hr hw ha hn' =>
    subst hx
    cases ha with
    | tls hh hc hp hag =>
      simp only [List.mem_cons, Note.startedTLS.injEq, reduceCtorEq, List.not_mem_nil, or_false] at hn'
      subst hn'
      exact ⟨_, _, _, _, he, hw, hp, hag, hc⟩
    | _ => simp at hn'
  | finished he hw hh => cases hx
  | unsolicited he => cases hx
  | lost he hw hn' => subst hx; rcases hn' with h | h <;> cases h
  | tls he hd hn' => subst hx; rcases hn' with h | h | h <;> cases h
  | startTLS he hd hi hc => cases hx

/-- A negative response - an error code, another name, or another kind of response - never switches TLS on; the
application gets the failure. -/
theorem negative_never (app : App) (fuel : Nat) (es : List Event) (c : Nat) (id : Int) (p : Pending) (op : Obj)
    (controls : Controls) (hw : Waiting (run app fuel es).log c id p) (hp : p.chain = .startTLS) (ho : Response op)
    (hn : ¬ Agrees op) (hh : p.handler = false) :
    ∃ n l, (run app fuel (es ++ [.received c (.message (.int id) op controls)])).log = (run app fuel es).log ++ n :: l ∧
      (n = .fired p.d (.failed op) ∨ (Cancelled (run app fuel es).log p.d ∧ n = .dropped p.d)) ∧
      ∀ m ∈ l, Own m := by
  obtain ⟨a, l, h1, h2, h3, _⟩ := C37.response_delivered app fuel es c id p op controls hw ho
  have hl : ∀ m ∈ l, Own m := by
    intro m hm
    rcases h3 m hm with h | ⟨h, _⟩
    · exact h
    · rw [hh] at h; simp at h
  cases h2 with
  | handler h => rw [hh] at h; simp at h
  | ignored h hc => exact ⟨_, l, by rw [h1, List.append_assoc]; rfl, .inr ⟨hc, rfl⟩, hl⟩
  | response h hc hp' => rw [hp] at hp'; simp at hp'
  | responseControls h hc hp' => rw [hp] at hp'; simp at hp'
  | bound mdn creds h hc hp' => rw [hp] at hp'; simp at hp'
  | bindFailed h hc hp' => rw [hp] at hp'; simp at hp'
  | tls h hc hp' ha => exact absurd ha hn
  | tlsFailed h hc hp' ha => exact ⟨_, l, by rw [h1, List.append_assoc]; rfl, .inl rfl, hl⟩

/-- `startTLS()` on a busy connection: the delayed call fails and nothing is sent by the client. -/
theorem busy_refused (app : App) (fuel : Nat) (es : List Event) (c d : Nat) (id : Int) (p : Pending)
    (hd : (run app fuel es).delayed.head? = some (c, d)) (hc : ((run app fuel es).conns c).connected = true)
    (hw : Waiting (run app fuel es).log c id p) :
    ∃ n l, (run app fuel (es ++ [.tick])).log = (run app fuel es).log ++ n :: l ∧
      (n = .fired d .busy ∨ (Cancelled (run app fuel es).log d ∧ n = .dropped d)) ∧ ∀ m ∈ l, Own m := by
  rw [C37.run_snoc]
  have hi := run_inv app fuel es
  generalize run app fuel es = w at *
  cases hdl : w.delayed with
  | nil => rw [hdl] at hd; simp at hd
  | cons x rest =>
    rw [hdl] at hd
    simp only [List.head?_cons, Option.some.injEq] at hd
    subst hd
    obtain ⟨hlt, hnd, hreq⟩ := hi.delayed_lt (c, d) (by rw [hdl]; simp)
    simp only at hlt hnd hreq
    have hp := (hi.wire_waiting c id p).mpr hw
    have hne : (w.conns c).onwire ≠ [] := fun h => by rw [h] at hp; simp at hp
    have hstep : step app fuel w .tick = runStartTLS app fuel { w with delayed := rest } c d := by
      simp only [step, hdl]
    rw [hstep]
    unfold runStartTLS
    by_cases hs : w.deferreds[d]? = some .waiting
    · rw [if_neg (by simpa using hs), if_neg (by simp [hc]), if_pos hne]
      obtain ⟨l, hlog, hown, _⟩ := fire_log app fuel { w with delayed := rest } d .busy hlt hnd
      rw [if_neg (by show w.deferreds[d]? ≠ _; rw [hs]; simp)] at hlog
      exact ⟨_, l, by rw [hlog, List.append_assoc]; rfl, .inl rfl, hown⟩
    · have hcan : w.deferreds[d]? = some .cancelled := by
        cases h : w.deferreds[d]? with
        | none => rw [List.getElem?_eq_none_iff] at h; omega
        | some s => cases s <;> simp_all
      rw [if_pos (by simpa using hs)]
      obtain ⟨l, hlog, hown, _⟩ := fire_log app fuel { w with delayed := rest } d .tls hlt hnd
      rw [if_pos (by exact hcan)] at hlog
      exact ⟨_, l, by rw [hlog, List.append_assoc]; rfl, .inr ⟨hi.cancelled_of d hcan, rfl⟩, hown⟩

/-- The server agrees. -/
def agreement : Obj := .extResponse 0x58 (.int 0) (.bytes []) (.bytes []) .none .none

example : Agrees agreement := ⟨_, _, _, _, _, rfl, .inl rfl⟩

/-- Which notes in a log are about TLS being switched on. -/
def starts (log : List Note) : List Nat := log.filterMap fun n => match n with | .startedTLS c => some c | _ => none

/-- A complete exchange. -/
example : starts (run C37.quiet 0 [.made 0, .app (.startTLS 0), .tick, .received 0 (.message (.int 1) agreement none)]).log = [0] ∧
    requests (run C37.quiet 0 [.made 0, .app (.startTLS 0), .tick]).log = [(0, 1, ⟨0, false, false, .startTLS⟩)] := by
  decide +kernel

/-- The connection need not be idle when TLS is switched on: only when the request is sent.  A request sent after it is
still waiting, having been written in the clear, while TLS is switched on. -/
theorem not_idle_when_switched :
    starts (run C37.quiet 0 [.made 0, .app (.startTLS 0), .tick, .app (.send 0 (.oct .delRequest 0x4a []) none),
      .received 0 (.message (.int 1) agreement none)]).log = [0] ∧
    ((run C37.quiet 0 [.made 0, .app (.startTLS 0), .tick, .app (.send 0 (.oct .delRequest 0x4a []) none),
      .received 0 (.message (.int 1) agreement none)]).conns 0).onwire = [(2, ⟨1, false, false, .plain⟩)] := by
  decide +kernel

end Verif.C39
