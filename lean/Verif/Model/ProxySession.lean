import Verif.Model.ProxyBase
import Verif.Model.Session
/-
A client, a `ProxyBase` with its own hooks, and the `LDAPServer` behind it: the three connections ends and the octets on
their way between them.

Simplifications: the two connections stay up (their ends are in `Model/ProxyBase`), there is no TLS towards the server, and
nobody else uses the server.  The octets written are those of the messages written (`queue`, ldapserver.py:53-60; `_send`,
ldapclient.py:81-88).
-/
namespace Verif.ProxySession
open Verif.Ldap Verif.ProxyBase

/-- proxybase.py:147-155 `handleBeforeForwardRequest` and 180-185 `handleProxiedResponse` as they are in the class. -/
def plainHooks : Hooks := ⟨fun _ op controls => .now [] (some (op, controls)), fun _ op => .now (some op)⟩

/-- The octets of the messages written to a transport. -/
def octets (l : List (PyVal × Obj)) : Bytes :=
  l.flatMap fun m => match toWire (.message m.1 m.2 none) with | .ok w => w | .error _ => []

/-- The server, what it has written to a connection, and the number of messages it was handed. -/
structure Serving where
  state : Server.State
  sent : List (PyVal × Obj)
  count : Nat

/-- ldapserver.py:106-128: `LDAPServer.handle` on a connection; the salts and texts of exceptions are those of the
`count`-th message. -/
def serverHandle (env : Server.Env) (lucks : Nat → Server.Luck) : Conn.Handler Serving := fun x m =>
  match Server.serve env (lucks x.count) x.state m with
  | some s => (⟨s.state, x.sent ++ s.sent, x.count + 1⟩, false)
  | none => (x, true)

/-- ldapserver.py:106-108: the proxy is handed a message of the client; the second component is `true` if it raises. -/
def clientSide : Conn.Handler St := fun s m =>
  match m with
  | .message id op controls => if Server.isRequest op then (step plainHooks s (.request id op controls), false) else (s, true)
  | _ => (s, true)

/-- ldapclient.py:183-211 `handle`: the client of the proxy is handed a message of the server.  The first raise is that of
the assertion in line 184, the second the KeyError of line 191. -/
def serverSide : Conn.Handler St := fun s m =>
  match m with
  | .message (.int i) op _ =>
    if Client.isResponse op then
      if i = 0 then (s, false)
      else match s.onwire.lookup i with
        | none => (s, true)
        | some _ => (step plainHooks s (.response i op), false)
    else (s, true)
  | _ => (s, true)

/-- The proxy with its two buffers, the server, and how many octets have arrived: of the client at the proxy, of the proxy
at the server, of the server at the proxy. -/
structure Sys where
  proxy : St
  clientBuffer : Bytes
  clientDead : Bool
  serverBuffer : Bytes
  serverDead : Bool
  server : Conn.Conn Serving
  heard : Nat
  forwarded : Nat
  returned : Nat

/-- What the network does: it delivers up to `n` more octets, or sets up the connection to the server. -/
inductive Event where
  | client (n : Nat)
  | up
  | forward (n : Nat)
  | back (n : Nat)

/-- proxybase.py:19-44 -/
def start (options : Bool) (st : Server.State) : Sys :=
  ⟨ProxyBase.start false options, [], false, [], false, Conn.fresh ⟨st, [], 0⟩, 0, 0, 0⟩

/-- What the proxy has written to the server. -/
def Sys.toServer (S : Sys) : Bytes := octets (S.proxy.wrote.map fun x => (.int x.1, x.2.2.1))

/-- What the server has written to the proxy. -/
def Sys.toProxy (S : Sys) : Bytes := octets S.server.st.sent

/-- What the proxy has written to the client. -/
def Sys.toClient (S : Sys) : Bytes := octets (S.proxy.sent.map fun m => (m.id, m.op))

/-- ldapserver.py:30-41, ldapclient.py:54-65 `dataReceived`, and proxybase.py:56-72; `input` is all that the client
writes. -/
def Sys.step (env : Server.Env) (lucks : Nat → Server.Luck) (input : Bytes) (S : Sys) : Event → Sys
  | .client n =>
    let c := Conn.dataReceived clientSide ⟨S.clientBuffer, S.proxy, S.clientDead⟩ ((input.drop S.heard).take n)
    { S with proxy := c.st, clientBuffer := c.buffer, clientDead := c.dead, heard := min (S.heard + n) input.length }
  | .up => { S with proxy := ProxyBase.step plainHooks S.proxy .up }
  | .forward n =>
    { S with server := Conn.dataReceived (serverHandle env lucks) S.server ((S.toServer.drop S.forwarded).take n),
             forwarded := min (S.forwarded + n) S.toServer.length }
  | .back n =>
    let c := Conn.dataReceived serverSide ⟨S.serverBuffer, S.proxy, S.serverDead⟩ ((S.toProxy.drop S.returned).take n)
    { S with proxy := c.st, serverBuffer := c.buffer, serverDead := c.dead, returned := min (S.returned + n) S.toProxy.length }

def Sys.run (env : Server.Env) (lucks : Nat → Server.Luck) (input : Bytes) (S : Sys) (es : List Event) : Sys :=
  es.foldl (Sys.step env lucks input) S

end Verif.ProxySession
