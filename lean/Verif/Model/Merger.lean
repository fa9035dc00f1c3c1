import Verif.Model.ServerBase
import Verif.Model.Client
/-
Model of `MergedLDAPServer` (/repo/ldaptor/protocols/ldap/merger.py:17-154): one client connection, and one connection to
each of the servers it is configured for.

The history of events says when a server connection comes up or is lost, what requests the client sends, and what the
servers answer.

Simplifications: the clients towards the servers are modelled as far as the merger uses them (ldapclient.py:60-133,
168-211): the table `onwire`, and the process-wide counter of message ids, which nobody else uses here.  What the table
holds is only the message id of the client's request, as the handler is always `_gotResponse` with the `reply` of that
request.  A connection that could not be made (`_failConnection`) closes the connection to the client; that is the event
`lost`.  Responses that arrive after the client has gone are not modelled: nothing can be written to it any more.
-/
namespace Verif.Merger
open Verif.Ldap Verif.Server Verif.Client

/-- The connection to a server (`LDAPClient`), with the requests written to it. -/
structure Up where
  connected : Bool
  onwire : List (Int × PyVal)
  wrote : List (Int × Obj)

/-- A `MergedLDAPServer`.  `ups` is the number of server connections made; `merge` holds the queues of `merge_map` with
their size; `sent` is what was written to the client. -/
structure St where
  servers : Nat
  connected : Bool
  ups : Nat
  clients : List Up
  allConnected : Bool
  waiting : List (PyVal × Obj)
  merge : List (PyVal × Nat × List Obj)
  nextId : Int
  unbound : Bool
  sent : List (PyVal × Obj)

inductive Event where
  /-- a server connection (with TLS, if asked for) is there -/
  | serverUp
  | serverLost (k : Nat)
  /-- the client sends a request -/
  | request (id : PyVal) (op : Obj)
  /-- server `k` sends a response under the given message id -/
  | response (k : Nat) (mid : Int) (op : Obj)
  /-- the client is gone -/
  | lost

/-- merger.py:20-28 `__init__`, 79-88 `connectionMade`, pureldap.py:25 -/
def start (servers : Nat) : St := ⟨servers, true, 0, [], false, [], [], 1, false, []⟩

/-- merger.py:62, 108-114: LDAPSearchResultDone or LDAPBindResponse -/
def isFinal : Obj → Bool
  | .result .searchResultDone .. | .result .bindResponse .. => true
  | _ => false

/-- `r.resultCode == ldaperrors.Success.resultCode`, merger.py:73 -/
def isSuccess : Obj → Bool
  | .result _ _ code _ _ _ => code = .int 0
  | _ => false

/-- ldapserver.py:53-60 `BaseLDAPServer.queue`; `true` if it raises. -/
def write (s : St) (id : PyVal) (op : Obj) : St × Bool :=
  if s.connected && encodes id op then ({ s with sent := s.sent ++ [(id, op)] }, false) else (s, true)

/-- merger.py:71-74: the last success among the queued responses, otherwise `op`. -/
def choose (op : Obj) (q : List Obj) : Obj := q.foldl (fun op r => if isSuccess r then r else op) op

/-- `del merge_map[id]` -/
def drop (m : List (PyVal × Nat × List Obj)) (id : PyVal) : List (PyVal × Nat × List Obj) := m.filter fun e => e.1 ≠ id

/-- merger.py:63-67: the queue of a message id after `op` is put into it, made if there is none. -/
def queued (s : St) (id : PyVal) (op : Obj) : Nat × List Obj :=
  match s.merge.lookup id with
  | none => (s.clients.length, [op])
  | some (n, l) => (n, l ++ [op])

/-- merger.py:61-78 `queue`; `true` if it raises.  A queue of size 0 has no limit and is never full.  After the client has
gone `clients` is empty, and nothing is taken out of the queue before it is thrown away. -/
def queue (s : St) (id : PyVal) (op : Obj) : St × Bool :=
  if isFinal op then
    if 0 < (queued s id op).1 ∧ (queued s id op).1 ≤ (queued s id op).2.length then
      write { s with merge := drop s.merge id } id (choose op ((queued s id op).2.take s.clients.length))
    else ({ s with merge := (id, queued s id op) :: drop s.merge id }, false)
  else write s id op

/-- merger.py:52-59 `_clientQueue`: the request goes to one server after the other, until one of the calls raises
(ldapclient.py:81-88, 128-133, 168-178).  A request whose `toWire` raises stays in `onwire`. -/
def forward (id : PyVal) (op : Obj) : Int → List Up → Int × List Up
  | next, [] => (next, [])
  | next, u :: us =>
    if !u.connected then (next, u :: us)
    else match needsAnswer op with
      | some true =>
        let u' := { u with onwire := u.onwire ++ [(next, id)] }
        if encodes (.int next) op then
          let r := forward id op (next + 1) us
          (r.1, { u' with wrote := u.wrote ++ [(next, op)] } :: r.2)
        else (next + 1, u' :: us)
      | some false =>
        if encodes (.int next) op then
          let r := forward id op (next + 1) us
          (r.1, { u with wrote := u.wrote ++ [(next, op)] } :: r.2)
        else (next + 1, u :: us)
      | none => (next, u :: us)

/-- `_clientQueue` on the state. -/
def clientQueue (s : St) (id : PyVal) (op : Obj) : St :=
  let r := forward id op s.nextId s.clients
  { s with nextId := r.1, clients := r.2 }

/-- merger.py:30-36, 117-119: `_whenConnected(self._clientQueue, ...)`; a failure of the Deferred is not looked at. -/
def whenConnected (s : St) (id : PyVal) (op : Obj) : St :=
  if s.allConnected then clientQueue s id op else { s with waiting := s.waiting ++ [(id, op)] }

/-- merger.py:42-50 `_cbConnectionMade` -/
def serverUp (s : St) : St :=
  let clients := s.clients ++ [⟨true, [], []⟩]
  let s' : St := { s with ups := s.ups + 1, clients := clients, allConnected := s.allConnected || clients.length = s.servers }
  if s'.allConnected then s'.waiting.foldl (fun s w => clientQueue s w.1 w.2) { s' with waiting := [] } else s'

/-- What `handle` (ldapserver.py:106-127) does with a request: LDAPUnwillingToPerform (merger.py:132-155) or
`handleUnknown` (121-130), which also gets every request without a handler of its own. -/
def receive (s : St) (id : PyVal) (op : Obj) : St :=
  match op with
  | .oct .delRequest _ _ | .addRequest .. | .modifyDN .. | .modifyRequest .. | .extRequest .. =>
    (queue s id (failWith op 53 .none)).1
  | .null .unbindRequest _ => whenConnected { s with unbound := true } id op
  | _ => whenConnected s id op

/-- `clients[k] = u` -/
def setUp (s : St) (k : Nat) (u : Up) : St := { s with clients := s.clients.set k u }

/-- ldapclient.py:182-211 `handle` with the handler `_gotResponse` (merger.py:105-115): a response to a request that is
not pending raises KeyError; the request is forgotten after the final response, unless `reply` raised. -/
def response (s : St) (k : Nat) (mid : Int) (op : Obj) : St :=
  match s.clients[k]? with
  | none => s
  | some u =>
    if u.connected && isResponse op then
      match u.onwire.lookup mid with
      | none => s
      | some id =>
        let r := queue s id op
        if !r.2 && isFinal op then setUp r.1 k { u with onwire := u.onwire.filter fun e => e.1 ≠ mid } else r.1
    else s

/-- ldapclient.py:72-79 `connectionLost` of the connection to a server: the Deferreds of all pending requests fail, and
the failures are logged (merger.py:57). -/
def serverLost (s : St) (k : Nat) : St :=
  match s.clients[k]? with
  | none => s
  | some u => setUp s k { u with connected := false, onwire := [] }

/-- One event; every configured server is connected to once (merger.py:79-87). -/
def step (s : St) : Event → St
  | .serverUp => if s.ups < s.servers then serverUp s else s
  | .serverLost k => serverLost s k
  | .request id op => if s.connected && isRequest op && id ≠ .int 0 then receive s id op else s
  | .response k mid op => response s k mid op
  | .lost => { s with connected := false, clients := [], unbound := true }

def run (s : St) (es : List Event) : St := es.foldl step s

end Verif.Merger
