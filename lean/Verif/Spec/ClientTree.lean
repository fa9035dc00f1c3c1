import Verif.Spec.Directory
import Verif.Spec.Ldif
import Verif.Spec.Session
import Verif.Model.ClientTree
/-
What becomes of the tree of a server when programs add and delete entries through the library's client.
-/
namespace Verif.Spec
open Verif.Ldap

/-- As `Exchanged`, but the server writes nothing: it is in the state `st'`, and both connections are up. -/
def Unanswered (env : Server.Env) (luck : Server.Luck) (app : Client.App) (fuel c : Nat) (w : Client.World) (x : Client.Call)
    (st st' : Server.State) : Prop :=
  ∃ p request out, p.d = w.deferreds.length ∧
    (Client.call app fuel w x).log = w.log ++ [.made c w.nextId, .sent c w.nextId p request, .written c out] ∧
    ∀ segs, segs.flatten = out →
      (Conn.feed (Session.serverHandle env luck) (Conn.fresh (st, [])) segs).st = (st', []) ∧
      (Conn.feed (Session.serverHandle env luck) (Conn.fresh (st, [])) segs).dead = false

namespace ClientTree
open Verif.ClientTree

/-- What a program does with an entry that it has. -/
inductive Action where
  /-- `entry.addChild(rdn, attributes)` -/
  | add (s : Syntax.St) (rdn : Str) (attributes : Given)
  /-- `entry.delete()` -/
  | delete (s : Syntax.St)

/-- What it is told. -/
inductive Told where
  /-- there is a new entry -/
  | entry (e : Syntax.St)
  | done
  | failed (e : Syntax.Err)
  /-- the Deferred does not fire -/
  | nothing

/-- What is sent. -/
def Action.request (U : Unicode) : Action → Except Syntax.Err Obj
  | .add s rdn g => (addChild U s rdn g).1.map (·.1)
  | .delete s => deleteRequest s

/-- What the answer comes to. -/
def Action.answer (U : Unicode) (a : Action) (m : Obj) : Told :=
  match a with
  | .add s rdn g =>
    match (addChild U s rdn g).1 with
    | .error e => .failed e
    | .ok x => match added U x.2 m with | .ok e => .entry e | .error e => .failed e
  | .delete _ => match deleteDone m with | none => .done | some e => .failed e

/-- The connection `c` of a process can take a request, and the texts of the server are not too long. -/
structure Ready (luck : Server.Luck) (c : Nat) (w : Client.World) : Prop where
  connected : (w.conns c).connected = true
  id : 0 < w.nextId ∧ w.nextId < 2 ^ 31
  free : (w.conns c).onwire.lookup w.nextId = none
  texts : ∀ e, Fit (luck.text e)

/-- The program does it, and is told. -/
inductive Did (env : Server.Env) (st : Server.State) (a : Action) : Told → Server.State → Prop where
  | refused {e} : a.request env.U = .error e → Did env st a (.failed e) st
  | answered {r m st' luck app fuel c w} : a.request env.U = .ok r → Ready luck c w →
      Exchanged env luck app fuel c w (.send c r none) st st' (.response m) → Did env st a (a.answer env.U m) st'
  | unanswered {r st' luck app fuel c w} : a.request env.U = .ok r → Ready luck c w →
      Unanswered env luck app fuel c w (.send c r none) st st' → Did env st a .nothing st'

/-- Programs do one thing after the other.  In between, anything may happen that leaves the tree as it is. -/
inductive Talk (env : Server.Env) : Server.State → List (Action × Told) → Server.State → Prop where
  | nil (st) : Talk env st [] st
  | quiet {st st' l st''} : st'.heap = st.heap → Talk env st' l st'' → Talk env st l st''
  | cons {st a t st' l st''} : Did env st a t st' → Talk env st' l st'' → Talk env st ((a, t) :: l) st''

/-- RFC 4511 section 4.7: the names of attributes are ASCII, none is given twice, nor is any of its values; they are all texts, or all
octets. -/
structure Proper (g : Given) : Prop where
  kind : (∀ p ∈ g, ∃ t, p.1 = .text t) ∨ ∀ p ∈ g, ∃ b, p.1 = .bytes b
  ascii : ∀ p ∈ g, p.1.Ascii
  names : g.Pairwise fun p q => ¬ SameName p.1 q.1
  values : ∀ p ∈ g, (p.2.map PyStr.toBytes).Nodup

/-- The entry has a DN that can be written, and the new RDN can be read and is not empty. -/
def Sensible (U : Unicode) : Action → Prop
  | .add s rdn g => Textual s.dn ∧ (∃ r, Dn.Rdn.parse U rdn = .ok r ∧ r ≠ []) ∧ Proper g
  | .delete s => Textual s.dn

/-- The result codes of RFC 4511, section 4.1.9. -/
inductive ResultOf : PyErr → Int → Prop where
  | noSuchObject : ResultOf .noSuchObject 32
  | alreadyExists : ResultOf .alreadyExists 68
  | cannotRemoveRoot : ResultOf .cannotRemoveRoot 64

/-- The same with the finite map: what the program is told is right. -/
inductive Follows (U : Unicode) (root : Name) : Directory → List (Action × Told) → Directory → Prop where
  | nil (D) : Follows U root D [] D
  | addDeleted {D s rdn g l D'} : s.deleted = true → Follows U root D l D' → Follows U root D ((.add s rdn g, .failed .deleted) :: l) D'
  | deleteDeleted {D s l D'} : s.deleted = true → Follows U root D l D' → Follows U root D ((.delete s, .failed .deleted) :: l) D'
  /-- the new entry, of which the program knows nothing yet -/
  | added {D s rdn r g l D'} : s.deleted = false → Dn.Rdn.parse U rdn = .ok r → (D.step U root (.add s.dn r g)).2 = none →
      Follows U root (D.step U root (.add s.dn r g)).1 l D' →
      Follows U root D ((.add s rdn g, .entry ⟨r :: s.dn, [], [], [], false, false⟩) :: l) D'
  | notAdded {D s rdn r g e c l D'} : s.deleted = false → Dn.Rdn.parse U rdn = .ok r → (D.step U root (.add s.dn r g)).2 = some e →
      ResultOf e c → Follows U root D l D' → Follows U root D ((.add s rdn g, .failed (.ldap c)) :: l) D'
  | deleted {D s l D'} : s.deleted = false → (D.step U root (.delete s.dn)).2 = none →
      Follows U root (D.step U root (.delete s.dn)).1 l D' → Follows U root D ((.delete s, .done) :: l) D'
  | notDeleted {D s e c l D'} : s.deleted = false → (D.step U root (.delete s.dn)).2 = some e → ResultOf e c → Follows U root D l D' →
      Follows U root D ((.delete s, .failed (.ldap c)) :: l) D'
  /-- an entry with entries below it is not deleted, but the program is not told -/
  | nonLeaf {D s l D'} : s.deleted = false → (D.step U root (.delete s.dn)).2 = some .notAllowedOnNonLeaf → Follows U root D l D' →
      Follows U root D ((.delete s, .nothing) :: l) D'

/-- The values given for an attribute, as octets. -/
def Gives (g : Given) (a : PyStr) (b : Bytes) : Prop := ∃ p ∈ g, SameName p.1 a ∧ b ∈ p.2.map PyStr.toBytes

end ClientTree
end Verif.Spec
