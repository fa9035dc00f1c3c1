import Verif.Model.Syntax
import Verif.Model.Errors
/-
Model of the search of a connected entry, /repo/ldaptor/protocols/ldap/ldapsyntax.py:639-737: what becomes of the responses.

The responses handed to `_cbSearchMsg` are those of one request (C37).  An exception in it goes up through
`LDAPClient.dataReceived` and ends the connection, which fails the search (ldapclient.py:72-79, ldapsyntax.py:726-731).

Simplifications: the Deferred is not cancelled.  A callback of the program may raise, but does nothing else to the client.
`referral` is always `None` (pureldap.py:282).
-/
namespace Verif.ClientSearch
open Verif.Ldap Verif.Syntax

/-- The arguments of `search` that matter for the responses: `complete` is `not attributes`; `raises` says for which entries
the callback raises.  Without a callback entries are appended to a list, which never raises. -/
structure Options where
  complete : Bool
  nonFatal : Bool
  raises : St → Bool

/-- How the Deferred of the search fires. -/
inductive Outcome where
  /-- with the entries -/
  | finished
  /-- with the exception for a result code -/
  | failed (code message : PyVal)
  /-- with the reason given to `connectionLost` -/
  | lost
  deriving DecidableEq, Repr

/-- The entries handed over so far, and how the search ended. -/
structure Running where
  entries : List St
  outcome : Option Outcome
  deriving DecidableEq, Repr

def start : Running := ⟨[], none⟩

/-- `d[k] = v` for a Python dictionary. -/
def dictSet (k : Bytes) (vs : List PyStr) : List (PyStr × List PyStr) → List (PyStr × List PyStr)
  | [] => [(.bytes k, vs)]
  | p :: l => if p.1 = .bytes k then (p.1, vs) :: l else p :: dictSet k vs l

/-- `[to_bytes(x) for x in values]` -/
def octets : List PyVal → Py (List PyStr)
  | [] => .ok []
  | v :: vs =>
    match toBytes v with
    | .error e => .error e
    | .ok b =>
      match octets vs with
      | .error e => .error e
      | .ok l => .ok (.bytes b :: l)

/-- ldapsyntax.py:640-642: the loop of `_cbSearchEntry`. -/
def gather : List (PyVal × List PyVal) → List (PyStr × List PyStr) → Py (List (PyStr × List PyStr))
  | [], d => .ok d
  | p :: l, d =>
    match octets p.2 with
    | .error e => .error e
    | .ok vs =>
      match toBytes p.1 with
      | .error e => .error e
      | .ok k => gather l (dictSet k vs d)

/-- ldapsyntax.py:639-646 `_cbSearchEntry`: the entry that is made. -/
def readEntry (U : Unicode) (complete : Bool) (name : PyVal) (attributes : List (PyVal × List PyVal)) : Py St :=
  match gather attributes [] with
  | .error e => .error e
  | .ok l =>
    match Server.readDn U name with
    | .error e => .error e
    | .ok dn => .ok (init U dn l complete)

/-- ldapsyntax.py:651-661: which way a result code goes. -/
inductive Kind where
  | success
  | sizeLimit
  | other
  deriving DecidableEq, Repr

/-- ldaperrors.py `get`, see `Model/Errors`; the message plays no part.  Codes that are not integers are not registered. -/
def kind : PyVal → Kind
  | .int c =>
    match Errors.get c none with
    | .success => .success
    | .known 4 _ _ => .sizeLimit
    | _ => .other
  | _ => .other

/-- ldapsyntax.py:648-674 `_cbSearchMsg` while the search is running. -/
def response (U : Unicode) (o : Options) (s : Running) : Obj → Running
  | .result .searchResultDone _ code matched message _ =>
    match kind code with
    | .other => { s with outcome := some (.failed code message) }
    | .sizeLimit =>
      if o.nonFatal then -- lines 656-657: `pass` either way
        if noDn matched then { s with outcome := some .finished } else { s with outcome := some .lost }
      else
        if noDn matched then { s with outcome := some .finished } else { s with outcome := some .lost }
    | .success => if noDn matched then { s with outcome := some .finished } else { s with outcome := some .lost }
  | .searchEntry _ name attributes =>
    match readEntry U o.complete name attributes with
    | .error _ => { s with outcome := some .lost }
    | .ok e => { entries := s.entries ++ [e], outcome := if o.raises e then some .lost else none }
  | .searchReference .. => s
  | _ => { s with outcome := some .lost }

inductive Event where
  | response (m : Obj)
  /-- the connection is lost -/
  | lost

/-- Once the search has ended its id is not known any more. -/
def step (U : Unicode) (o : Options) (s : Running) (e : Event) : Running :=
  match s.outcome with
  | some _ => s
  | none =>
    match e with
    | .response m => response U o s m
    | .lost => { s with outcome := some .lost }

def run (U : Unicode) (o : Options) (es : List Event) : Running := es.foldl (step U o) start

end Verif.ClientSearch
