import Verif.Model.ServerBase
/-
Lemmas about the dispatch of requests to arbitrary handlers.
-/
namespace Verif.ServerBase
open Verif.Ldap Verif.Server

variable {fail : Obj → Int → Message → Obj}

/-- The responses to the `k`-th request so far. -/
def to (k : Nat) (c : Conn) : List Sent := c.sent.filter fun m => m.k = k
def finals (k : Nat) (c : Conn) : List Sent := c.sent.filter fun m => m.k = k ∧ m.final = true

theorem send_requests (c : Conn) (k : Nat) (id : PyVal) (f : Bool) (r : Option Obj) :
    (send c k id f r).requests = c.requests ∧ (send c k id f r).connected = c.connected := by
  cases r with
  | none => exact ⟨rfl, rfl⟩
  | some op => simp only [send]; split <;> exact ⟨rfl, rfl⟩

/-- Sending adds at most one message, and says what it is. -/
theorem send_sent (c : Conn) (k : Nat) (id : PyVal) (f : Bool) (r : Option Obj) :
    (send c k id f r).sent = c.sent ∨ ∃ op, r = some op ∧ (send c k id f r).sent = c.sent ++ [⟨k, id, op, f⟩] := by
  cases r with
  | none => exact .inl rfl
  | some op =>
    simp only [send]; split
    · exact .inr ⟨op, rfl, rfl⟩
    · exact .inl rfl

/-- A request keeps its id, and once it is finished it stays finished. -/
theorem step_request {c : Conn} {e : Event} {k : Nat} {q : Request} (h : c.requests[k]? = some q) :
    ∃ q', (step fail c e).requests[k]? = some q' ∧ q'.id = q.id ∧ q'.request = q.request ∧
      (q.waiting = false → q'.waiting = false) := by
  have hlt : k < c.requests.length := (List.getElem?_eq_some_iff.mp h).1
  cases e with
  | made => exact ⟨q, h, rfl, rfl, id⟩
  | lost => exact ⟨q, h, rfl, rfl, id⟩
  | received i r =>
    simp only [step]; split
    · exact ⟨q, by simp only; rw [List.getElem?_append_left hlt]; exact h, rfl, rfl, id⟩
    · exact ⟨q, h, rfl, rfl, id⟩
  | reply j r =>
    simp only [step]; split
    · rw [(send_requests ..).1]; exact ⟨q, h, rfl, rfl, id⟩
    · exact ⟨q, h, rfl, rfl, id⟩
  | finish j o =>
    simp only [step]; split
    · rename_i p hp
      split
      · rw [(send_requests ..).1]
        by_cases hjk : j = k
        · subst hjk
          rw [h] at hp
          cases hp
          exact ⟨{ q with waiting := false }, by simp [hlt], rfl, rfl, fun _ => rfl⟩
        · exact ⟨q, by simp only; rw [List.getElem?_set_ne hjk]; exact h, rfl, rfl, id⟩
      · exact ⟨q, h, rfl, rfl, id⟩
    · exact ⟨q, h, rfl, rfl, id⟩

theorem finals_append (k : Nat) (c : Conn) (rs : List Request) (b : Bool) (m : Sent) :
    finals k ⟨b, rs, c.sent ++ [m]⟩ = finals k c ++ if m.k = k ∧ m.final = true then [m] else [] := by
  simp only [finals, List.filter_append]
  congr 1
  by_cases h : m.k = k ∧ m.final = true <;> simp [h]

/-- Anything but finishing the waiting request leaves its final responses alone. -/
theorem step_finals {c : Conn} {e : Event} {k : Nat}
    (h : ∀ o, e = .finish k o → ∀ q, c.requests[k]? = some q → q.waiting = false) : finals k (step fail c e) = finals k c := by
  have aux : ∀ (d : Conn) (j : Nat) (i : PyVal) (f : Bool) (r : Option Obj), d.sent = c.sent → (f = true → j ≠ k) →
      finals k (send d j i f r) = finals k c := by
    intro d j i f r hd hf
    rcases send_sent d j i f r with h | ⟨op, -, h⟩
    · simp only [finals, h, hd]
    · have h2 : ¬ (j = k ∧ f = true) := fun hh => hf hh.2 hh.1
      simp only [finals, h, hd, List.filter_append]
      simp [h2]
  cases e with
  | made => rfl
  | lost => rfl
  | received i r => simp only [step]; split <;> rfl
  | reply j r =>
    simp only [step]; split
    · exact aux _ _ _ _ _ rfl (by simp)
    · rfl
  | finish j o =>
    simp only [step]; split
    · rename_i p hp
      split
      · rename_i hw
        refine aux _ _ _ _ _ rfl fun _ hjk => ?_
        subst hjk
        have := h o rfl p hp
        rw [this] at hw
        cases hw
      · rfl
    · rfl

theorem run_append (es es' : List Event) : run fail (es ++ es') = es'.foldl (step fail) (run fail es) := by
  simp [run, List.foldl_append]

/-- Once finished, a request gets no further final response. -/
theorem finals_after {c : Conn} {k : Nat} {q : Request} (h : c.requests[k]? = some q) (hw : q.waiting = false)
    (es : List Event) : finals k (es.foldl (step fail) c) = finals k c := by
  induction es generalizing c q with
  | nil => rfl
  | cons e es ih =>
    obtain ⟨q', hq', -, -, hw'⟩ := step_request (fail := fail) (e := e) h
    rw [List.foldl_cons, ih hq' (hw' hw), step_finals]
    intro o _ p hp
    rw [h] at hp; cases hp; exact hw

/-- What holds of every history. -/
structure Inv (c : Conn) : Prop where
  /-- every response carries the id of its request -/
  ids : ∀ m ∈ c.sent, ∃ q, c.requests[m.k]? = some q ∧ q.id = m.id
  /-- a waiting request has no final response yet -/
  waiting : ∀ k q, c.requests[k]? = some q → q.waiting = true → finals k c = []
  /-- requests with id 0 are not handled -/
  nonzero : ∀ q ∈ c.requests, q.id ≠ .int 0 ∧ isRequest q.request = true

theorem Inv.start : Inv start := ⟨by simp [ServerBase.start], by simp [ServerBase.start], by simp [ServerBase.start]⟩

theorem step_sent {c : Conn} {e : Event} : ∀ m ∈ (step fail c e).sent,
    m ∈ c.sent ∨ ∃ q, c.requests[m.k]? = some q ∧ q.id = m.id := by
  intro m hm
  cases e with
  | made => exact .inl hm
  | lost => exact .inl hm
  | received i r => simp only [step] at hm; split at hm <;> exact .inl hm
  | reply j r =>
    simp only [step] at hm; split at hm
    · rename_i q hq
      rcases send_sent c j q.id false r with h | ⟨op, -, h⟩
      · rw [h] at hm; exact .inl hm
      · rw [h, List.mem_append, List.mem_singleton] at hm
        rcases hm with hm | rfl
        · exact .inl hm
        · exact .inr ⟨q, hq, rfl⟩
    · exact .inl hm
  | finish j o =>
    simp only [step] at hm; split at hm
    · rename_i q hq
      split at hm
      · rcases send_sent { c with requests := c.requests.set j { q with waiting := false } } j q.id true
          (answer fail q.request o) with h | ⟨op, -, h⟩
        · rw [h] at hm; exact .inl hm
        · rw [h, List.mem_append, List.mem_singleton] at hm
          rcases hm with hm | rfl
          · exact .inl hm
          · exact .inr ⟨q, hq, rfl⟩
      · exact .inl hm
    · exact .inl hm

theorem Inv.step {c : Conn} (hi : Inv c) (e : Event) : Inv (step fail c e) := by
  refine ⟨?_, ?_, ?_⟩
  · intro m hm
    have : ∃ q, c.requests[m.k]? = some q ∧ q.id = m.id := by
      rcases step_sent m hm with h | h
      · exact hi.ids m h
      · exact h
    obtain ⟨q, hq, hid⟩ := this
    obtain ⟨q', hq', h1, -, -⟩ := step_request (fail := fail) (e := e) hq
    exact ⟨q', hq', h1.trans hid⟩
  · intro k q hq hw
    cases hold : c.requests[k]? with
    | some p =>
      obtain ⟨q', hq', -, -, hw'⟩ := step_request (fail := fail) (e := e) hold
      rw [hq] at hq'; cases hq'
      have hpw : p.waiting = true := by
        cases hpw : p.waiting with
        | true => rfl
        | false => rw [hw' hpw] at hw; cases hw
      rw [step_finals]
      · exact hi.waiting k p hold hpw
      · rintro o rfl p' hp'
        rw [hold] at hp'; cases hp'
        exfalso
        have hlt : k < c.requests.length := (List.getElem?_eq_some_iff.mp hold).1
        simp only [ServerBase.step, hold, hpw, if_true] at hq
        rw [(send_requests ..).1] at hq
        simp only [List.getElem?_set_self hlt, Option.some.injEq] at hq
        rw [← hq] at hw
        cases hw
    | none =>
      -- a new request: nothing was ever sent for it
      have hnone : ∀ m ∈ (ServerBase.step fail c e).sent, m.k ≠ k := by
        intro m hm hmk
        have : ∃ q, c.requests[m.k]? = some q := by
          rcases step_sent m hm with h | ⟨q, h, -⟩
          · obtain ⟨q, h, -⟩ := hi.ids m h; exact ⟨q, h⟩
          · exact ⟨q, h⟩
        obtain ⟨p, hp⟩ := this
        rw [hmk, hold] at hp; cases hp
      simp only [finals, List.filter_eq_nil_iff]
      intro m hm
      have := hnone m hm
      simp [this]
  · intro q hq
    cases e with
    | made => exact hi.nonzero q hq
    | lost => exact hi.nonzero q hq
    | received i r =>
      simp only [ServerBase.step] at hq; split at hq
      · rename_i h
        simp only [List.mem_append, List.mem_singleton] at hq
        rcases hq with hq | rfl
        · exact hi.nonzero q hq
        · exact ⟨h.2, h.1⟩
      · exact hi.nonzero q hq
    | reply j r =>
      simp only [ServerBase.step] at hq; split at hq
      · rw [(send_requests ..).1] at hq; exact hi.nonzero q hq
      · exact hi.nonzero q hq
    | finish j o =>
      simp only [ServerBase.step] at hq; split at hq
      · rename_i p hp
        split at hq
        · rw [(send_requests ..).1] at hq
          rcases List.mem_or_eq_of_mem_set hq with h | h
          · exact hi.nonzero q h
          · have := hi.nonzero p (List.mem_of_getElem? hp)
            rw [h]; exact this
        · exact hi.nonzero q hq
      · exact hi.nonzero q hq

theorem Inv.run (es : List Event) : Inv (run fail es) := by
  have : ∀ c, Inv c → Inv (es.foldl (ServerBase.step fail) c) := by
    induction es with
    | nil => exact fun c h => h
    | cons e es ih => exact fun c h => ih _ (h.step e)
  exact this _ Inv.start

end Verif.ServerBase
