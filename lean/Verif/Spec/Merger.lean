import Verif.Model.Merger
/-
What is expected of a server that passes each request of its client on to several servers.
-/
namespace Verif.Spec.Merger
open Verif.Ldap Verif.Merger

/-- The last response to a search or bind request (RFC 4511, 4.2.2 and 4.5.2). -/
def Final (r : Obj) : Prop :=
  ∃ tag code mdn msg creds, r = .result .searchResultDone tag code mdn msg creds ∨ r = .result .bindResponse tag code mdn msg creds

/-- The result code is `success`. -/
def Succeeded (r : Obj) : Prop := ∃ c tag mdn msg creds, r = .result c tag (.int 0) mdn msg creds

/-- What was written to the client under a message id. -/
def toClient (i : PyVal) (sent : List (PyVal × Obj)) : List Obj := (sent.filter fun m => m.1 = i).map (·.2)

/-- The responses to one request, in the order of their arrival, each with the server it came from.  `mid k` is the message
id of the request on the connection to server `k`. -/
def answers (mid : Nat → Int) (n : Nat) (h : List Event) : List (Nat × Obj) :=
  h.filterMap fun
    | .response k m op => if k < n ∧ m = mid k then some (k, op) else none
    | _ => none

/-- The servers behave: a server that has sent its last response to the request, or whose connection is lost, sends no
more; every response is one, and can be written under the client's message id.  The client stays, and does not use the
message id again meanwhile. -/
structure Orderly (i : PyVal) (mid : Nat → Int) (n : Nat) (h : List Event) : Prop where
  response : ∀ a ∈ answers mid n h, Client.isResponse a.2 = true ∧ Server.encodes i a.2 = true
  last : ∀ a b k op, h = a ++ .response k (mid k) op :: b → k < n →
    (∀ op', .response k (mid k) op' ∈ a → ¬ Final op') ∧ .serverLost k ∉ a
  stays : .lost ∉ h
  noReuse : ∀ op, .request i op ∉ h

/-- Nothing is pending under a message id of the client. -/
def Free (i : PyVal) (s : St) : Prop := (∀ u ∈ s.clients, ∀ e ∈ u.onwire, e.2 ≠ i) ∧ ∀ e ∈ s.merge, e.1 ≠ i

end Verif.Spec.Merger
