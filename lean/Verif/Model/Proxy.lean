import Verif.Model.Merger
/-
Model of `Proxy` (/repo/ldaptor/protocols/ldap/proxy.py:8-96): any number of client connections of one process, each
with its own link to the proxied server.

`waitingConnect` is an attribute of the class, so there is one list for all connections.  Its entries hold a bound method
of the connection that queued them.

Simplifications: the client towards the proxied server is modelled as far as the proxy uses it.  The transport of a
connection delivers events until the connection is lost, and ignores writes after that.  An exception that
reaches the reactor out of `dataReceived` closes that link.  `debug` is off.  The Deferred of the connector fires once.
-/
namespace Verif.Proxy
open Verif.Ldap Verif.Server Verif.Client
open Verif.Merger (isFinal)

/-- A message written to the proxied server: its message id, the number of the request, the operation. -/
structure Wrote where
  mid : Int
  r : Nat
  op : Obj

/-- A message written to the client: for which request, its message id. -/
structure Sent where
  r : Nat
  id : PyVal
  op : Obj

/-- One client connection. -/
structure PConn where
  /-- the connection was made -/
  opened : Bool
  /-- the transport is there -/
  alive : Bool
  /-- `self.connected` -/
  connected : Bool
  unbound : Bool
  /-- the Deferred of the connector has fired -/
  settled : Bool
  /-- `self.client is not None` -/
  client : Bool
  /-- the link to the proxied server is there -/
  upConnected : Bool
  /-- the message ids of the requests received so far -/
  requests : List PyVal
  onwire : List (Int × Nat)
  wrote : List Wrote
  sent : List Sent
  /-- the proxy has asked for the end of the link, with or without an unbind request -/
  closing : Bool

/-- The process: the message ids of pureldap.py:25-32, `Proxy.waitingConnect` (connection, number of the request, request,
controls), the connections. -/
structure World where
  nextId : Int
  waiting : List (Nat × Nat × Obj × Controls)
  conns : Nat → PConn

inductive Event where
  /-- a client connects -/
  | opened (c : Nat)
  /-- the connector of connection `c` gives a link -/
  | up (c : Nat)
  /-- the connector of connection `c` fails -/
  | failed (c : Nat)
  /-- the link of connection `c` is lost -/
  | upLost (c : Nat)
  | request (c : Nat) (id : PyVal) (op : Obj) (controls : Controls)
  /-- the proxied server sends a response over the link of connection `c` -/
  | response (c : Nat) (mid : Int) (op : Obj)
  /-- the client is gone -/
  | lost (c : Nat)

/-- A connection that was not made. -/
def PConn.fresh : PConn := ⟨false, false, false, false, false, false, false, [], [], [], [], false⟩

/-- The process at its start (proxy.py:11-13). -/
def World.initial : World := ⟨1, [], fun _ => .fresh⟩

def World.set (w : World) (c : Nat) (x : PConn) : World := { w with conns := fun j => if j = c then x else w.conns j }

/-- proxy.py:64-72 `connectionMade` -/
def made (w : World) (c : Nat) : World := w.set c { PConn.fresh with opened := true, alive := true, connected := true }

/-- proxy.py:42-48 `_clientQueue`, with ldapclient.py:81-88, 128-133, 168-178.  All exceptions end in a Deferred that
nobody looks at: no link (`None` has no attributes), a lost link, a request without `needs_answer`, one that cannot be
encoded. -/
def clientQueue (w : World) (c r : Nat) (op : Obj) : World :=
  let x := w.conns c
  if x.client && x.upConnected then
    match needsAnswer op with
    | none => w
    | some answer =>
      let onwire := if answer then x.onwire ++ [(w.nextId, r)] else x.onwire
      let wrote := if encodes (.int w.nextId) op then x.wrote ++ [⟨w.nextId, r, op⟩] else x.wrote
      { w.set c { x with onwire, wrote } with nextId := w.nextId + 1 }
  else w

/-- proxy.py:26-32 `_whenConnected` -/
def whenConnected (w : World) (c r : Nat) (op : Obj) (controls : Controls) : World :=
  if (w.conns c).client then clientQueue w c r op else { w with waiting := w.waiting ++ [(c, r, op, controls)] }

/-- `self.unbound` after a request, proxy.py:94-95. -/
def unbinds (op : Obj) (unbound : Bool) : Bool :=
  match op with
  | .null .unbindRequest _ => true
  | _ => unbound

/-- ldapserver.py:106-127 `handle` with proxy.py:85-96.  The handler gives `None`, so nothing more is sent. -/
def receive (w : World) (c : Nat) (id : PyVal) (op : Obj) (controls : Controls) : World :=
  let x := w.conns c
  whenConnected (w.set c { x with requests := x.requests ++ [id], unbound := unbinds op x.unbound }) c x.requests.length op controls

/-- proxy.py:34-39 `_cbConnectionMade` -/
def up (w : World) (c : Nat) : World :=
  w.waiting.foldl (fun w q => clientQueue w q.1 q.2.1 q.2.2.1)
    { w.set c { w.conns c with settled := true, client := true, upConnected := true } with waiting := [] }

/-- The link ends, ldapclient.py:72-79. -/
def PConn.down (x : PConn) : PConn := { x with upConnected := false, onwire := [] }

/-- proxy.py:49-58 `_gotResponse`, with ldapclient.py:182-211 and ldapserver.py:53-60, 84-86, for the request `r` of
connection `c` whose message id is `id`.  If `reply` raises the exception goes up to the reactor. -/
def gotResponse (x : PConn) (r : Nat) (id : PyVal) (mid : Int) (op : Obj) : PConn :=
  if x.connected && encodes id op then
    { x with
      sent := if x.alive then x.sent ++ [⟨r, id, op⟩] else x.sent
      onwire := if isFinal op then x.onwire.filter fun e => e.1 ≠ mid else x.onwire }
  else x.down

/-- ldapclient.py:182-211 `handle`: something that is not a response, and a message id that is not in use, raise. -/
def response (x : PConn) (mid : Int) (op : Obj) : PConn :=
  if isResponse op then
    if mid = 0 then x
    else
      match x.onwire.lookup mid with
      | none => x.down
      | some r =>
        match x.requests[r]? with
        | none => x
        | some id => gotResponse x r id mid op
  else x.down

/-- proxy.py:74-83 `connectionLost`, with ldapclient.py:233-238 `unbind`.  Without a link the assertion fails and
nothing is done. -/
def lost (w : World) (c : Nat) : World :=
  let x := { w.conns c with alive := false }
  if x.client then
    let nextId := if x.upConnected && !x.unbound then w.nextId + 1 else w.nextId
    { w.set c { x with connected := false, client := false, unbound := x.unbound || x.upConnected,
                       closing := x.closing || x.upConnected } with nextId }
  else w.set c x

/-- One event. -/
def step (w : World) : Event → World
  | .opened c => if (w.conns c).opened then w else made w c
  | .up c => if (w.conns c).opened && !(w.conns c).settled then up w c else w
  | .failed c =>
    if (w.conns c).opened && !(w.conns c).settled then w.set c { w.conns c with settled := true } else w -- proxy.py:60-62
  | .upLost c =>
    if (w.conns c).upConnected then w.set c (w.conns c).down else w
  | .request c id op controls =>
    if (w.conns c).alive && isRequest op && id ≠ .int 0 then receive w c id op controls else w
  | .response c mid op => if (w.conns c).upConnected then w.set c (response (w.conns c) mid op) else w
  | .lost c => if (w.conns c).alive then lost w c else w

def run (es : List Event) : World := es.foldl step .initial

end Verif.Proxy
