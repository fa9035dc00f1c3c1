import Verif.Model.Session
import Verif.Model.FilterObj
import Verif.Model.Schema
import Verif.Model.NamingContext
/-
Model of /repo/ldaptor/protocols/ldap/fetchschema.py.

Simplification: the messages of the exceptions are left out.
-/
namespace Verif.FetchSchema
open Verif.Ldap Verif.Syntax

/-- Why the Deferred of `fetch` fails: with a search; with one of the two `LDAPOther` of lines 17, 33, 49 and 60; with an
assertion of lines 27-30 and 52-56; or because of something else that a result of a search is. -/
inductive Failure where
  | search (o : ClientSearch.Outcome)
  | noSuchDN
  | multiple
  | raised (e : Err)
  deriving DecidableEq, Repr

/-- Lines 9-13 and 41-45: the request of a search, with `parseFilter("(objectClass=*)")` and the defaults of
ldapsyntax.py:676-712. -/
def request (d : Dn.Dn) (wanted : List Bytes) : Obj :=
  Session.searchRequest d 0 0 1 0 false
    (match FilterText.parseFilter "(objectClass=*)".toList with | .ok f => f.obj | .error _ => .null .null 0) wanted

/-- Lines 41-45 -/
def firstRequest (d : Dn.Dn) : Obj := request d [Server.ascii "subschemaSubentry"]

/-- Lines 9-13 -/
def secondRequest (d : Dn.Dn) : Obj := request d [Server.ascii "attributeTypes", Server.ascii "objectClasses"]

/-- entry.py:60-64, ldapsyntax.py:229-231: `o.get(key, [])` -/
def get (U : Unicode) (e : St) (key : String) : Except Err (List PyStr) :=
  match target U e (.text key.toList) with
  | .ok p => .ok p.2
  | .error (.py .keyError) => .ok []
  | .error x => .error x

/-- Lines 47-60 `handleSearchResults`: the value of `subschemaSubentry`; the assertions are that there is the attribute and that
it has one value. -/
def subschema (U : Unicode) : List St → Except Failure PyStr
  | [] => .error .noSuchDN
  | [e] =>
    match target U e (.text "subschemaSubentry".toList) with
    | .error (.py .keyError) => .error (.raised (.py .assertionError))
    | .error x => .error (.raised x)
    | .ok (_, [v]) => .ok v
    | .ok _ => .error (.raised (.py .assertionError))
  | _ => .error .multiple

/-- Lines 39-64 `fetch`, up to line 8: the DN of the second search, once the first has ended. -/
def first (U : Unicode) (r : ClientSearch.Running) : Option (Except Failure Dn.Dn) :=
  match r.outcome with
  | none => none
  | some .finished =>
    match subschema U r.entries with
    | .error f => some (.error f)
    | .ok v =>
      match NamingContext.readName U v with
      | .error x => some (.error (.raised (.py x)))
      | .ok d => some (.ok d)
  | some o => some (.error (.search o))

/-- Lines 23-26: the loops. -/
def readAll {α : Type} (parse : Bytes → Py α) : List PyStr → Except Failure (List α)
  | [] => .ok []
  | v :: vs =>
    match parse v.toBytes with
    | .error x => .error (.raised (.py x))
    | .ok a =>
      match readAll parse vs with
      | .error f => .error f
      | .ok as => .ok (a :: as)

/-- Lines 15-33 `handleSearchResults` -/
def descriptions (U : Unicode) : List St → Except Failure (List Schema.AttributeType × List Schema.ObjectClass)
  | [] => .error .noSuchDN
  | [e] =>
    match get U e "attributeTypes" with
    | .error x => .error (.raised x)
    | .ok vs =>
      match readAll Schema.AttributeType.parse vs with
      | .error f => .error f
      | .ok ats =>
        match get U e "objectClasses" with
        | .error x => .error (.raised x)
        | .ok ws =>
          match readAll Schema.ObjectClass.parse ws with
          | .error f => .error f
          | .ok ocs => if ats = [] then .error (.raised (.py .assertionError)) else .ok (ats, ocs)
  | _ => .error .multiple

/-- Lines 7-36 `_fetchCb`: what the Deferred is given, once the second search has ended. -/
def second (U : Unicode) (r : ClientSearch.Running) : Option (Except Failure (List Schema.AttributeType × List Schema.ObjectClass)) :=
  match r.outcome with
  | none => none
  | some .finished => some (descriptions U r.entries)
  | some o => some (.error (.search o))

end Verif.FetchSchema
