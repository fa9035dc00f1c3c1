import Verif.Model.Server
import Verif.Model.Client
import Verif.Model.ClientSearch
import Verif.Model.Syntax
/-
How the pieces of the library are put together on the two ends of a connection.
-/
namespace Verif.Session
open Verif.Ldap

/-- ldapserver.py:43-51, 84-86, 106-128: `LDAPServer.handle` on a connection.  The state is that of the server and what it
has written so far.  The salt and the texts of exceptions are the same for all requests; the theorems are about one
request. -/
def serverHandle (env : Server.Env) (luck : Server.Luck) : Conn.Handler (Server.State × List (PyVal × Obj)) := fun x m =>
  match Server.serve env luck x.1 m with
  | some s => ((s.state, x.2 ++ s.sent), false)
  | none => (x, true)

/-- `LDAPClient.handle` on the connection `c` of a process. -/
def clientHandle (app : Client.App) (fuel : Nat) (c : Nat) : Conn.Handler Client.World := fun w m => Client.handle app fuel w c m

/-- The responses with which the handler of the request with the Deferred `d` has been called. -/
def responsesTo (d : Nat) : List Client.Note → List Obj
  | [] => []
  | .handled d' op _ :: l => if d' = d then op :: responsesTo d l else responsesTo d l
  | _ :: l => responsesTo d l

/-- ldapsyntax.py:648-674: what `_cbSearchMsg` returns, and whether it raises. -/
def reaction (r : ClientSearch.Running) : Client.Reaction :=
  match r.outcome with
  | none => ⟨[], false, false⟩
  | some .lost => ⟨[], false, true⟩
  | some _ => ⟨[], true, false⟩

/-- ldapsyntax.py:713-721: the program has `_cbSearchMsg` as the handler of the request with the Deferred `d`.  What else it
does does not matter. -/
def Searches (U : Unicode) (o : ClientSearch.Options) (d : Nat) (app : Client.App) : Prop :=
  ∀ log op controls, app (log ++ [.handled d op controls]) =
    reaction (ClientSearch.run U o ((responsesTo d log ++ [op]).map .response))

/-- delta.py:52, 72, 93 `_LDAP_OP` -/
def ldapOp : ModKind → Int
  | .add => 0
  | .delete => 1
  | .replace => 2

/-- delta.py:19-44 `asLDAP`.  The library keeps what this is written out as, not the object; the values come in the order in
which the set is iterated. -/
def asLDAP (m : Mod) : Obj :=
  .seq .sequence 0x10 [.int .enumerated 0x0A (ldapOp m.kind), .seq .sequence 0x10 [.oct .octetString 0x04 m.key.toBytes,
    .seq .set 0x11 (m.values.map fun v => .oct .octetString 0x04 v.toBytes)]]

/-- ldapsyntax.py:343-345: the request of a commit. -/
def commitRequest (dn : Dn.Dn) (ms : List Mod) : Obj := .modifyRequest 0x46 (.bytes (Utf8.encode dn.text)) (ms.map asLDAP)

/-- ldapsyntax.py:690-712 `search`: the request, once the filter is known; the arguments are integers and names as octets. -/
def searchRequest (d : Dn.Dn) (scope deref sl tl : Int) (ty : Bool) (filter : Obj) (wanted : List Bytes) : Obj :=
  .searchRequest 0x43 (.bytes (Utf8.encode d.text)) (.int scope) (.int deref) (.int sl) (.int tl) (.int (if ty then 1 else 0)) filter
    (wanted.map .bytes)

end Verif.Session
