import Verif.Model.ProxyBase
/-
What is expected of a proxy: the responses of the proxied server reach the client in the order of their arrival.
-/
namespace Verif.Spec.ProxyBase
open Verif.Ldap Verif.ProxyBase
open Verif.Server (encodes isRequest)
open Verif.Client (Controls needsAnswer)

/-- What the client was sent for a request from the responses of the proxied server: message ids and responses. -/
def relayed (r : Nat) (sent : List Sent) : List (PyVal × Obj) :=
  (sent.filter fun m => m.r = r && m.relayed).map fun m => (m.id, m.op)

/-- Everything that the client was sent for a request. -/
def toClient (r : Nat) (sent : List Sent) : List (PyVal × Obj) := (sent.filter fun m => m.r = r).map fun m => (m.id, m.op)

/-- The responses that have arrived for a request, in order. -/
def arrivals (r : Nat) (hooks : List Called) : List Called := hooks.filter fun c => c.r = r

/-- The hook has given its result. -/
def hasFired (c : Called) : Bool :=
  match c.state with
  | .fired _ => true
  | _ => false

/-- The result of the hook, if it has fired with one. -/
def result (c : Called) : Option Obj :=
  match c.state with
  | .fired x => x
  | _ => none

/-! ### The requests of the client -/

/-- The requests in a history in which the client stays connected: id, operation and controls. -/
def received (es : List Event) : List (PyVal × Obj × Controls) :=
  es.filterMap fun
    | .request id op c => if isRequest op && id ≠ .int 0 then some (id, op, c) else none
    | _ => none

/-- A StartTLS request (RFC 4511, 4.14.1), which the proxy answers itself. -/
def isStartTLS : Obj → Bool
  | .extRequest _ name _ => name = .bytes [49, 46, 51, 46, 54, 46, 49, 46, 52, 46, 49, 46, 49, 52, 54, 54, 46, 50, 48, 48, 51, 55]
  | _ => false

/-- The requests to be forwarded, in the order of their arrival, with their numbers. -/
def toForward (es : List Event) : List (Nat × Obj × Controls) :=
  ((received es).zipIdx.filter fun x => !isStartTLS x.1.2.1).map fun x => (x.2, x.1.2.1, x.1.2.2)

/-- What becomes of a request in the hook: the operation to be forwarded, if any. -/
def hooked (H : Hooks) (q : Nat × Obj × Controls) : Option (Nat × Obj) :=
  match H.before q.1 q.2.1 q.2.2 with
  | .now _ (some (op, _)) => some (q.1, op)
  | _ => none

/-- The hook answers at once; what it sends to the client and forwards can be encoded, also under each of the first `n`
message ids. -/
structure Prompt (H : Hooks) (n : Nat) (id : PyVal) (q : Nat × Obj × Controls) : Prop where
  now : ∃ replies x, H.before q.1 q.2.1 q.2.2 = .now replies x ∧ (∀ op, some op ∈ replies → encodes id op = true) ∧
    ∀ op c, x = some (op, c) → needsAnswer op ≠ none ∧ ∀ m : Int, 1 ≤ m → m ≤ n → encodes (.int m) op = true

/-- A bind request. -/
def isBind : Obj → Bool
  | .bind .. => true
  | _ => false

/-- The answer `unavailable` to a bind request (RFC 4511, 4.2.2 and A.2). -/
def unavailable : Obj := .result .bindResponse 0x41 (.int 52) (.bytes []) (.bytes []) .none

/-- The answer to a StartTLS request (RFC 4511, 4.14.2). -/
def tlsAnswer (code : Int) : Obj := .extResponse 0x58 (.int code) (.bytes []) (.bytes []) .none .none

end Verif.Spec.ProxyBase
