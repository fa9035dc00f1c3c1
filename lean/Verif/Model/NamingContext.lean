import Verif.Model.Session
import Verif.Model.FilterObj
/-
Model of `LDAPEntryWithClient.namingContext`, /repo/ldaptor/protocols/ldap/ldapsyntax.py:590-606.
-/
namespace Verif.NamingContext
open Verif.Ldap Verif.Syntax

/-- distinguishedname.py:237-261 `DistinguishedName(x)` for a value of an attribute. -/
def readName (U : Unicode) : PyStr → Py Dn.Dn
  | .bytes b => Server.readDn U (.bytes b)
  | .text s => Dn.Dn.parse U s

/-- entry.py:60-64, ldapsyntax.py:229-231: `result.get("namingContexts", ())` -/
def contexts (U : Unicode) (e : St) : Except Err (List PyStr) :=
  match target U e (.text "namingContexts".toList) with
  | .ok p => .ok p.2
  | .error (.py .keyError) => .ok []
  | .error x => .error x

/-- ldapsyntax.py:592-595: the loop over the values of a result; `none` if it ends. -/
def among (U : Unicode) (dn : Dn.Dn) : List PyStr → Except Err (Option Dn.Dn)
  | [] => .ok none
  | v :: vs =>
    match readName U v with
    | .error x => .error (.py x)
    | .ok d => if Dn.Dn.contains U d dn then .ok (some d) else among U dn vs

/-- ldapsyntax.py:590-596 `_cbNamingContext_Entries`: the DN of the entry that is made, `none` for
`NoContainingNamingContext`. -/
def ofResults (U : Unicode) (dn : Dn.Dn) : List St → Except Err (Option Dn.Dn)
  | [] => .ok none
  | e :: es =>
    match contexts U e with
    | .error x => .error x
    | .ok vs =>
      match among U dn vs with
      | .error x => .error x
      | .ok (some d) => .ok (some d)
      | .ok none => ofResults U dn es

/-- ldapsyntax.py:599-604: the request of the search, with `parseFilter("(objectClass=*)")` and the defaults of lines 676-712. -/
def request : Obj :=
  Session.searchRequest [] 0 0 0 0 false
    (match FilterText.parseFilter "(objectClass=*)".toList with | .ok f => f.obj | .error _ => .null .null 0) [Server.ascii "namingContexts"]

/-- Why the Deferred of `namingContext` fails, other than with `NoContainingNamingContext`: with the search, or because of a
result of it. -/
inductive Failure where
  | search (o : ClientSearch.Outcome)
  | raised (e : Err)
  deriving DecidableEq, Repr

/-- ldapsyntax.py:598-606 `namingContext`: what the Deferred is given, once the search has ended. -/
def namingContext (U : Unicode) (dn : Dn.Dn) (r : ClientSearch.Running) : Option (Except Failure (Option Dn.Dn)) :=
  match r.outcome with
  | none => none
  | some .finished =>
    match ofResults U dn r.entries with
    | .ok x => some (.ok x)
    | .error e => some (.error (.raised e))
  | some o => some (.error (.search o))

end Verif.NamingContext
