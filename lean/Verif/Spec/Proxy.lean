import Verif.Model.Proxy
/-
What is expected of a proxy with several client connections: each has its own requests, link and responses.
-/
namespace Verif.Spec.Proxy
open Verif.Ldap Verif.Proxy
open Verif.Server (encodes isRequest)

/-- A client connection: not made yet, there, gone. -/
inductive Phase where
  | before
  | there
  | gone
  deriving DecidableEq, Repr

/-- How an event changes that for the client connection `c`. -/
def next (c : Nat) : Phase → Event → Phase
  | .before, .opened j => if j = c then .there else .before
  | .there, .lost j => if j = c then .gone else .there
  | p, _ => p

/-- The request that an event brings on the client connection `c`. -/
def gain (c : Nat) : Phase → Event → List (PyVal × Obj)
  | .there, .request j id op _ => if j = c && isRequest op && id ≠ .int 0 then [(id, op)] else []
  | _, _ => []

/-- The requests of the client connection `c`: message ids and operations, from the given phase on. -/
def receivedFrom (c : Nat) : Phase → List Event → List (PyVal × Obj)
  | _, [] => []
  | p, e :: es => gain c p e ++ receivedFrom c (next c p e) es

/-- The requests of the client connection `c` in a history. -/
def received (c : Nat) (es : List Event) : List (PyVal × Obj) := receivedFrom c .before es

/-- The event brings the link of another connection. -/
def otherUp (c : Nat) : Event → Bool
  | .up j => j ≠ c
  | _ => false

/-- The event is a request on the client connection `c`. -/
def isRequestOf (c : Nat) : Event → Bool
  | .request j .. => j = c
  | _ => false

/-- What was forwarded: the numbers of the requests and the operations. -/
def forwarded (x : PConn) : List (Nat × Obj) := x.wrote.map fun y => (y.r, y.op)

/-- The operations, numbered. -/
def numbered (l : List (PyVal × Obj)) : List (Nat × Obj) := l.zipIdx.map fun x => (x.2, x.1.2)

/-- Each request on the connection `c` can be encoded under each of the first `n` message ids. -/
def Fits (c n : Nat) (es : List Event) : Prop :=
  ∀ id op k, .request c id op k ∈ es → ∀ m : Int, 1 ≤ m → m ≤ n → encodes (.int m) op = true

end Verif.Spec.Proxy
