import Verif.Spec.Each
import Verif.Spec.Search
import Verif.Spec.Syntax
import Verif.Spec.ClientSearch
import Verif.Spec.Stream
import Verif.Model.Session
/-
What a client should see of the entries of a server.
-/
namespace Verif.Spec
open Verif.Spec.Modify

/-- The entry of a client shows the entry of a server: the same DN, and the values of the wanted attributes, as octets,
each once, under names that are there once. -/
structure Copy (e : Entry) (wanted : List Bytes) (complete : Bool) (x : Syntax.St) : Prop where
  dn : x.dn = e.dn
  attrs : ∀ n v, Has x.attrs n v ↔ (∃ a vs u, (a, vs) ∈ e.attrs ∧ fold a.toBytes = n ∧ u ∈ vs ∧ v = .bytes u.toBytes) ∧
    (Explicit wanted → ∃ k ∈ wanted, fold k = n)
  sets : ∀ p ∈ x.attrs, p.2.Nodup
  named : allOctets.Named x.attrs
  remote : x.remote = x.attrs
  journal : x.journal = []
  ready : x.deleted = false
  complete : x.complete = complete

/-- A DN that can be written as text: no `=` in an attribute type, no empty RDN (C10). -/
structure Textual (d : Dn.Dn) : Prop where
  types : ∀ r ∈ d, ∀ a ∈ r, '=' ∉ a.attributeType
  rdns : ∀ r ∈ d, r ≠ []

/-- A program makes the call `x` on the connection `c`: the client writes one request, and the process is as `w` apart from
that.  What it writes goes to the server over the network, in any segments; what the server writes goes back, in any segments.
Then the server is in the state `st'`, the Deferred of the call is told `o` - first of all that happens there -, both
connections are up, and the client has forgotten the request. -/
def Exchanged (env : Server.Env) (luck : Server.Luck) (app : Client.App) (fuel c : Nat) (w : Client.World) (x : Client.Call)
    (st st' : Server.State) (o : Client.Outcome) : Prop :=
  let w₁ := Client.call app fuel w x
  ∃ p request out, p.d = w.deferreds.length ∧
    w₁.log = w.log ++ [.made c w.nextId, .sent c w.nextId p request, .written c out] ∧
    ∀ segs, segs.flatten = out → ∃ sent back,
      (Conn.feed (Session.serverHandle env luck) (Conn.fresh (st, [])) segs).st = (st', sent) ∧
      (Conn.feed (Session.serverHandle env luck) (Conn.fresh (st, [])) segs).dead = false ∧
      Wires (sent.map fun x => .message x.1 x.2 none) back ∧
      ∀ segs', segs'.flatten = back →
        let s := Conn.feed (Session.clientHandle app fuel c) (Conn.fresh w₁) segs'
        s.dead = false ∧ (∃ l, s.st.log = w₁.log ++ .fired p.d o :: l) ∧ (s.st.conns c).onwire.lookup w.nextId = none

/-- A program searches on the connection `c`: the client writes the request, which goes to the server over the network, in any
segments; what the server writes goes back, in any segments.  Then the server is as it was, the connection is up, the search has
ended, and what it has come to is as told by `P`. -/
def Searched (env : Server.Env) (luck : Server.Luck) (app : Client.App) (fuel c : Nat) (o : ClientSearch.Options) (w : Client.World)
    (request : Ldap.Obj) (st : Server.State) (P : ClientSearch.Running → Prop) : Prop :=
  let w₁ := Client.call app fuel w (.sendMultiEx c request none true)
  ∃ p out, p.d = w.deferreds.length ∧ w₁.log = w.log ++ [.made c w.nextId, .sent c w.nextId p request, .written c out] ∧
    ∀ segs, segs.flatten = out → ∃ sent back,
      (Conn.feed (Session.serverHandle env luck) (Conn.fresh (st, [])) segs).st = (st, sent) ∧
      (Conn.feed (Session.serverHandle env luck) (Conn.fresh (st, [])) segs).dead = false ∧
      Wires (sent.map fun x => .message x.1 x.2 none) back ∧
      ∀ segs', segs'.flatten = back →
        let s := Conn.feed (Session.clientHandle app fuel c) (Conn.fresh w₁) segs'
        s.dead = false ∧ .finished p.d ∈ s.st.log ∧
        P (ClientSearch.run env.U o ((Session.responsesTo p.d s.st.log).map .response))

end Verif.Spec
