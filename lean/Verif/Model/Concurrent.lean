import Verif.Model.ProxySession
/-
An `LDAPClient` and an `LDAPServer` connected to each other while requests are under way: the two ends of the connection and the
octets between them.

Simplifications: the process has one connection, which stays up, and nobody else uses the server.  The octets that the server has
written are those of the messages written (`queue`, ldapserver.py:53-60).
-/
namespace Verif.Concurrent
open Verif.Ldap Verif.ProxySession

/-- The process with its buffer, the server, and how many octets have arrived: of the client at the server, and of the server at
the client. -/
structure Sys where
  client : Client.World
  buffer : Bytes
  dead : Bool
  server : Conn.Conn Serving
  arrived : Nat
  returned : Nat

/-- The application calls a method of the client, or the network delivers up to `n` more octets. -/
inductive Event where
  | call (x : Client.Call)
  | out (n : Nat)
  | back (n : Nat)

/-- ldapclient.py:67-69 and ldapserver.py:24-28: the connection is made. -/
def start (c : Nat) (st : Server.State) : Sys :=
  ⟨Client.World.initial.setConn c ⟨true, []⟩, [], false, Conn.fresh ⟨st, [], 0⟩, 0, 0⟩

/-- What the client has written to its transport (ldapclient.py:81-88, 102, 132, 165). -/
def octetsOut (c : Nat) (log : List Client.Note) : Bytes :=
  log.flatMap fun n => match n with | .written j b => if j = c then b else [] | _ => []

/-- What the server has written. -/
def Sys.toClient (Y : Sys) : Bytes := octets Y.server.st.sent

/-- ldapserver.py:30-41 and ldapclient.py:54-65 `dataReceived`. -/
def Sys.step (env : Server.Env) (lucks : Nat → Server.Luck) (app : Client.App) (fuel c : Nat) (Y : Sys) : Event → Sys
  | .call x => { Y with client := Client.call app fuel Y.client x }
  | .out n =>
    { Y with server := Conn.dataReceived (serverHandle env lucks) Y.server (((octetsOut c Y.client.log).drop Y.arrived).take n),
             arrived := min (Y.arrived + n) (octetsOut c Y.client.log).length }
  | .back n =>
    let d := Conn.dataReceived (Session.clientHandle app fuel c) ⟨Y.buffer, Y.client, Y.dead⟩ ((Y.toClient.drop Y.returned).take n)
    { Y with client := d.st, buffer := d.buffer, dead := d.dead, returned := min (Y.returned + n) Y.toClient.length }

def Sys.run (env : Server.Env) (lucks : Nat → Server.Luck) (app : Client.App) (fuel c : Nat) (Y : Sys) (es : List Event) : Sys :=
  es.foldl (Sys.step env lucks app fuel c) Y

end Verif.Concurrent
