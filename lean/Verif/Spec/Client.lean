import Verif.Model.Client
/-
Specification of the client, in terms of the log of what happened only.
-/
namespace Verif.Spec.Client
open Verif.Ldap Verif.Client

/-- The message ids given out, in order. -/
def madeIds (log : List Note) : List Int := log.filterMap fun n => match n with | .made _ id => some id | _ => none

/-- The requests that expect an answer: connection, message id, and how the answer is to be delivered. -/
def requests (log : List Note) : List (Nat × Int × Pending) :=
  log.filterMap fun n => match n with | .sent c id p _ => some (c, id, p) | _ => none

/-- How often a Deferred has delivered a result. -/
def timesFired (d : Nat) (log : List Note) : Nat :=
  log.countP fun n => match n with | .fired d' _ => d' = d | _ => false

/-- A result has been put into the Deferred (and ignored by it, if it had been cancelled). -/
def Settled (log : List Note) (d : Nat) : Prop :=
  .dropped d ∈ log ∨ ∃ o, .fired d o ∈ log ∧ o ≠ .cancelled

/-- The request needs no more answers. -/
def Completed (log : List Note) (d : Nat) : Prop := Settled log d ∨ .finished d ∈ log

/-- A request is waiting for an answer. -/
def Waiting (log : List Note) (c : Nat) (id : Int) (p : Pending) : Prop :=
  (c, id, p) ∈ requests log ∧ ¬ Completed log p.d

/-- The Deferred was cancelled. -/
def Cancelled (log : List Note) (d : Nat) : Prop := .fired d .cancelled ∈ log

/-- A positive answer to a StartTLS request (RFC 4511, 4.14.2): success, with the right name or no name. -/
def Agrees (op : Obj) : Prop :=
  ∃ tag mdn msg name resp, op = .extResponse tag (.int 0) mdn msg name resp ∧
    (name = .none ∨ name = .bytes ("1.3.6.1.4.1.1466.20037".toList.map fun c => UInt8.ofNat c.toNat))

/-- A positive answer to a bind request. -/
def Accepts (op : Obj) (mdn creds : PyVal) : Prop :=
  ∃ tag msg, op = .result .bindResponse tag (.int 0) mdn msg creds

/-- What has to happen when a response to a waiting request arrives. -/
inductive Answer (log : List Note) (c : Nat) (p : Pending) (op : Obj) (controls : Controls) : List Note → Prop where
  /-- the handler is called with the response -/
  | handler (h : p.handler = true) :
      Answer log c p op controls [.handled p.d op (if p.returnControls then some controls else none)]
  /-- nobody is interested any more -/
  | ignored (h : p.handler = false) (hc : Cancelled log p.d) : Answer log c p op controls [.dropped p.d]
  | response (h : p.handler = false) (hc : ¬ Cancelled log p.d) (hp : p.chain = .plain) (hr : p.returnControls = false) :
      Answer log c p op controls [.fired p.d (.response op)]
  | responseControls (h : p.handler = false) (hc : ¬ Cancelled log p.d) (hp : p.chain = .plain)
      (hr : p.returnControls = true) : Answer log c p op controls [.fired p.d (.responseControls op controls)]
  | bound (mdn creds : PyVal) (h : p.handler = false) (hc : ¬ Cancelled log p.d) (hp : p.chain = .bind)
      (ha : Accepts op mdn creds) : Answer log c p op controls [.fired p.d (.bound mdn creds)]
  | bindFailed (h : p.handler = false) (hc : ¬ Cancelled log p.d) (hp : p.chain = .bind)
      (ha : ∀ mdn creds, ¬ Accepts op mdn creds) : Answer log c p op controls [.fired p.d (.failed op)]
  | tls (h : p.handler = false) (hc : ¬ Cancelled log p.d) (hp : p.chain = .startTLS) (ha : Agrees op) :
      Answer log c p op controls [.startedTLS c, .fired p.d .tls]
  | tlsFailed (h : p.handler = false) (hc : ¬ Cancelled log p.d) (hp : p.chain = .startTLS) (ha : ¬ Agrees op) :
      Answer log c p op controls [.fired p.d (.failed op)]

/-- Something the application brought about by its own calls: no response is delivered, no request fails, TLS is not
asked for by the client nor switched on. -/
def Own : Note → Prop
  | .sent _ _ p _ => p.chain ≠ .startTLS
  | .made .. | .written .. | .refused .. | .closing .. => True
  | .fired _ .cancelled => True
  | _ => False

/-- Something on the connection `c`. -/
def NotOn (c : Nat) : Note → Prop
  | .made j _ | .sent j _ _ _ | .written j _ | .closing j => j ≠ c
  | _ => True

/-- A protocol response (RFC 4511, 4.1.1). -/
def Response : Obj → Prop
  | .result .. | .extResponse .. | .searchEntry .. | .searchReference .. => True
  | _ => False

/-- The operations that are answered (RFC 4511, 4.2 to 4.12): all requests but unbind and abandon. -/
def Asks : Obj → Prop
  | .oct .delRequest _ _ | .bind .. | .searchRequest .. | .modifyRequest .. | .addRequest .. | .modifyDN .. | .compare ..
  | .extRequest .. => True
  | _ => False

/-- The Deferred `d` or its handler is told about a response. -/
def Delivers (d : Nat) : Note → Prop
  | .handled d' _ _ => d' = d
  | .fired d' (.response _) | .fired d' (.responseControls _ _) | .fired d' (.bound _ _) | .fired d' .tls
  | .fired d' (.failed _) => d' = d
  | _ => False

/-- The Deferred `d` is told that the connection is lost, or would have been had it not been cancelled. -/
def Fails (d : Nat) : Note → Bool
  | .fired d' .lost | .dropped d' => d' = d
  | _ => false

end Verif.Spec.Client
