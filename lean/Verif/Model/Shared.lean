import Verif.Model.Concurrent
/-
Several `LDAPClient`s, each in a process of its own, connected to one server: every connection has its own `LDAPServer` protocol with
its buffer and bound user, and all have the tree of the factory.

Simplifications: those of `Model/Concurrent`; the connections are there from the beginning.
-/
namespace Verif.Shared
open Verif.Ldap Verif.Concurrent

/-- The tree, and for each connection its two ends. -/
structure Many where
  heap : Tree.Heap
  ends : Nat → Sys

/-- ldapserver.py:153, 189, 247, 312, 326, 352, 385, 404: `IConnectedLDAPEntry(self.factory)`, the tree that all protocols of a factory have. -/
def seeing (Y : Sys) (heap : Tree.Heap) : Sys :=
  { Y with server := { Y.server with st := { Y.server.st with state := ⟨heap, Y.server.st.state.bound⟩ } } }

/-- ldapserver.py:44-46, 135: connections made to a server with this tree; nobody is bound. -/
def start (c : Nat) (heap : Tree.Heap) : Many := ⟨heap, fun _ => Concurrent.start c ⟨heap, none⟩⟩

/-- Something happens at the connection `j`. -/
def Many.step (env : Server.Env) (lucks : Nat → Nat → Server.Luck) (apps : Nat → Client.App) (fuel c : Nat) (X : Many) (e : Nat × Event) : Many :=
  let Y := (seeing (X.ends e.1) X.heap).step env (lucks e.1) (apps e.1) fuel c e.2
  ⟨Y.server.st.state.heap, fun i => if i = e.1 then Y else X.ends i⟩

def Many.run (env : Server.Env) (lucks : Nat → Nat → Server.Luck) (apps : Nat → Client.App) (fuel c : Nat) (X : Many) (es : List (Nat × Event)) :
    Many := es.foldl (Many.step env lucks apps fuel c) X

end Verif.Shared
