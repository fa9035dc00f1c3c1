import Verif.Spec.Concurrent
import Verif.Model.Shared
/-
Specification vocabulary for clients that share a server: the same requests handled one after the other.
-/
namespace Verif.Spec
open Verif.Ldap

/-- The tree, and for each client the bound user, the number of its requests that were handled, and what was sent to it. -/
structure Books where
  heap : Tree.Heap
  bound : Nat → Option Nat
  done : Nat → Nat
  sent : Nat → List (PyVal × Obj)

/-- The next request of the client `j`, handed alone to a server with this tree. -/
def turn (env : Server.Env) (lucks : Nat → Nat → Server.Luck) (ms : Nat → List Msg) (s : Books) (j : Nat) : Books :=
  match (ms j)[s.done j]? with
  | none => s
  | some m =>
    match toWire m.build with
    | .error _ => s
    | .ok b =>
      let x := direct env (fun _ => lucks j (s.done j)) ⟨s.heap, s.bound j⟩ [b]
      ⟨x.state.heap, fun i => if i = j then x.state.bound else s.bound i, fun i => if i = j then s.done j + 1 else s.done i,
        fun i => if i = j then s.sent j ++ x.sent else s.sent i⟩

/-- The requests handled one after the other; the list tells whose turn it is. -/
def oneByOne (env : Server.Env) (lucks : Nat → Nat → Server.Luck) (ms : Nat → List Msg) (heap : Tree.Heap) (turns : List Nat) : Books :=
  turns.foldl (turn env lucks ms) ⟨heap, fun _ => none, fun _ => 0, fun _ => []⟩

/-- Whose requests the server handled in a history, in order. -/
def turnsOf (env : Server.Env) (lucks : Nat → Nat → Server.Luck) (apps : Nat → Client.App) (fuel c : Nat) :
    Shared.Many → List (Nat × Concurrent.Event) → List Nat
  | _, [] => []
  | X, e :: es => List.replicate (((X.step env lucks apps fuel c e).ends e.1).server.st.count - (X.ends e.1).server.st.count) e.1 ++
      turnsOf env lucks apps fuel c (X.step env lucks apps fuel c e) es

/-- The part of `Passable` that is about the request alone. -/
structure Proper (m : Msg) : Prop where
  id : 0 < m.id ∧ m.id < 2 ^ 31
  wf : m.op.WF
  size : m.op.size < 2 ^ 50
  kind : Answerable m.op.build ∨ m.op = .unbind
  plain : ∀ v, m.op ≠ .extRequest Client.startTLSOid v
  uncritical : ∀ cs ∈ m.controls, ∀ c ∈ cs, c.critical ≠ some true

/-- Requests that are handled in this order; the next one of each client is judged in every state on the way. -/
structure Orderly (env : Server.Env) (lucks : Nat → Nat → Server.Luck) (heap : Tree.Heap) (ms : Nat → List Msg) (turns : List Nat) : Prop where
  few : ∀ j, (ms j).length < 2 ^ 31 - 1
  proper : ∀ j, ∀ m ∈ ms j, Proper m
  each : ∀ T j, T <+: turns → ∀ m, (ms j)[(oneByOne env lucks ms heap T).done j]? = some m →
    Fits (lucks j ((oneByOne env lucks ms heap T).done j)) ⟨(oneByOne env lucks ms heap T).heap, (oneByOne env lucks ms heap T).bound j⟩ m.op.build none ∧
      ∀ n ∈ (oneByOne env lucks ms heap T).heap, Modest n.entry []

end Verif.Spec
