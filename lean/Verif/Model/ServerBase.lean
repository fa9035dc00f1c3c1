import Verif.Model.Server
/-
Model of `BaseLDAPServer` (/repo/ldaptor/protocols/ldap/ldapserver.py:13-127) with handlers that may do anything: they may
answer at once or much later, in any order, and send any number of intermediate responses.  What the handlers do is part
of the history of events.
-/
namespace Verif.ServerBase
open Verif.Ldap Verif.Server

/-- How the Deferred of a handler fires. -/
inductive Outcome where
  | returned (response : Option Obj)
  /-- an LDAPException with its `resultCode` (`None` for LDAPUnknownError, LDAPServerConnectionLostException) -/
  | ldapError (code : Option Int) (m : Message)
  | otherError (text : Bytes)

inductive Event where
  | made
  | lost
  | received (id : PyVal) (request : Obj)
  /-- the handler of the `k`-th request calls `reply` -/
  | reply (k : Nat) (response : Option Obj)
  /-- the handler of the `k`-th request is done -/
  | finish (k : Nat) (o : Outcome)

/-- A request that was given to a handler. -/
structure Request where
  id : PyVal
  request : Obj
  waiting : Bool

/-- A message written: for which request, its message id, and whether it is the result of the handler. -/
structure Sent where
  k : Nat
  id : PyVal
  op : Obj
  final : Bool

structure Conn where
  connected : Bool
  requests : List Request
  sent : List Sent

/-- ldapserver.py:17-19 `__init__` -/
def start : Conn := ⟨false, [], []⟩

/-- ldapserver.py:53-60 `queue`, 84-86 `_cbHandle`: written if the connection is there and the message can be encoded;
otherwise the call raises. -/
def send (c : Conn) (k : Nat) (id : PyVal) (final : Bool) : Option Obj → Conn
  | none => c
  | some op => if c.connected && encodes id op then { c with sent := c.sent ++ [⟨k, id, op, final⟩] } else c

/-- ldapserver.py:123-126: the errbacks; `fail` is the error response the class makes, `_callErrorHandler`.  A response
without result code fails an assertion (pureldap.py:306), which `_cbOtherError` then reports. -/
def answer (fail : Obj → Int → Message → Obj) (request : Obj) : Outcome → Option Obj
  | .returned r => r
  | .ldapError (some c) m => some (fail request c m)
  | .ldapError none _ => some (fail request 2 (.text []))
  | .otherError t => some (fail request 2 (.text t))

/-- One event. -/
def step (fail : Obj → Int → Message → Obj) (c : Conn) : Event → Conn
  | .made => { c with connected := true }
  | .lost => { c with connected := false }
  | .received id request =>
    if isRequest request ∧ id ≠ .int 0 then { c with requests := c.requests ++ [⟨id, request, true⟩] } else c
  | .reply k r =>
    match c.requests[k]? with
    | some q => send c k q.id false r
    | none => c
  | .finish k o =>
    match c.requests[k]? with
    | some q =>
      if q.waiting then
        send { c with requests := c.requests.set k { q with waiting := false } } k q.id true (answer fail q.request o)
      else c
    | none => c

/-- A history of a connection. -/
def run (fail : Obj → Int → Message → Obj) (es : List Event) : Conn := es.foldl (step fail) start

end Verif.ServerBase
