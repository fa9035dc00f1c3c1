import Verif.Lemmas.Client
/-
C36  Outstanding requests never share a message id.
-/
namespace Verif.C36
open Verif.Ldap Verif.Client Verif.Spec.Client

/-- The ids given out in a process are positive and strictly increasing, on whichever connections they are used. -/
theorem ids_increase (app : App) (fuel : Nat) (es : List Event) :
    (madeIds (run app fuel es).log).Pairwise (· < ·) ∧ ∀ i ∈ madeIds (run app fuel es).log, 1 ≤ i :=
  ⟨(run_inv app fuel es).made_sorted, fun i hi => ((run_inv app fuel es).made_lt i hi).1⟩

/-- Two requests with the same id are the same request, with the same connection and the same Deferred. -/
theorem requests_distinct (app : App) (fuel : Nat) (es : List Event) (c c' : Nat) (id : Int) (p p' : Pending)
    (h : (c, id, p) ∈ requests (run app fuel es).log) (h' : (c', id, p') ∈ requests (run app fuel es).log) :
    c = c' ∧ p = p' := by
  have := sorted_unique (run_inv app fuel es).req_sorted h h' rfl
  simp only [Prod.mk.injEq] at this
  exact ⟨this.1, this.2.2⟩

/-- The ids in the tables of the clients are those of requests that were sent, and no id is in two tables. -/
theorem outstanding_distinct (app : App) (fuel : Nat) (es : List Event) (c c' : Nat) (e e' : Int × Pending)
    (h : e ∈ ((run app fuel es).conns c).onwire) (h' : e' ∈ ((run app fuel es).conns c').onwire) (hi : e.1 = e'.1) :
    c = c' ∧ e = e' := by
  have := sorted_unique (run_inv app fuel es).req_sorted ((run_inv app fuel es).wire_req c e h)
    ((run_inv app fuel es).wire_req c' e' h') hi
  simp only [Prod.mk.injEq] at this
  exact ⟨this.1, Prod.ext this.2.1 this.2.2⟩

/-- The id of a request is one that was given out, and each request has a Deferred of its own. -/
theorem requests_made (app : App) (fuel : Nat) (es : List Event) :
    (∀ r ∈ requests (run app fuel es).log, r.2.1 ∈ madeIds (run app fuel es).log) ∧
    ((requests (run app fuel es).log).map fun r => r.2.2.d).Nodup :=
  ⟨(run_inv app fuel es).req_lt, (run_inv app fuel es).req_d⟩

/-- What is written when a request is sent carries the id of the request: the octets are the encoding of the message
with that id, and the client waits for an answer with that id. -/
theorem written_id (app : App) (fuel : Nat) (es : List Event) (c : Nat) (op : Obj) (controls : Controls) (b : Bytes)
    (hc : ((run app fuel es).conns c).connected = true) (ho : needsAnswer op = some true)
    (hb : toWire (.message (.int (run app fuel es).nextId) op controls) = .ok b) :
    ∃ id p, (run app fuel (es ++ [.app (.send c op controls)])).log =
        (run app fuel es).log ++ [.made c id, .sent c id p op, .written c b] ∧
      toWire (.message (.int id) op controls) = .ok b ∧ (∀ i ∈ madeIds (run app fuel es).log, i < id) ∧
      (id, p) ∈ ((run app fuel (es ++ [.app (.send c op controls)])).conns c).onwire := by
  have hi := run_inv app fuel es
  have hr : run app fuel (es ++ [.app (.send c op controls)]) =
      sendNew (run app fuel es) c op controls false false .plain := by
    unfold run; rw [List.foldl_append]; simp only [List.foldl_cons, List.foldl_nil, step]; cases fuel <;> rfl
  rw [hr]
  generalize run app fuel es = w at *
  have hl : (w.conns c).onwire.lookup w.nextId = none := by
    cases h : (w.conns c).onwire.lookup w.nextId with
    | none => rfl
    | some p =>
      have := (hi.made_lt _ (hi.req_lt _ (hi.wire_req c _ (lookup_mem h)))).2
      simp at this
  refine ⟨w.nextId, ⟨w.deferreds.length, false, false, .plain⟩, ?_, hb, fun i h => (hi.made_lt i h).2, ?_⟩
  · simp [sendNew, sendOn, prepare, hc, World.note, hl, ho, write, hb, register, World.setConn]
  · simp [sendNew, sendOn, prepare, hc, World.note, hl, ho, write, hb, register, World.setConn]

/-- Two connections and an application that does nothing on its own. -/
example : madeIds (run (fun _ => ⟨[], false, false⟩) 0 [.made 0, .made 1, .app (.send 0 (.oct .delRequest 0x4a []) none),
      .app (.unbind 1), .app (.send 0 (.oct .delRequest 0x4a []) none)]).log = [1, 2, 3] ∧
    requests (run (fun _ => ⟨[], false, false⟩) 0 [.made 0, .made 1, .app (.send 0 (.oct .delRequest 0x4a []) none),
      .app (.unbind 1), .app (.send 0 (.oct .delRequest 0x4a []) none)]).log =
      [(0, 1, ⟨0, false, false, .plain⟩), (0, 3, ⟨1, false, false, .plain⟩)] := by decide +kernel

end Verif.C36
