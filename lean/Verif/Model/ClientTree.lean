import Verif.Model.Session
/-
Model of what entries of the client do to the tree of the server: `move`, `delete` and `addChild`,
/repo/ldaptor/protocols/ldap/ldapsyntax.py:350-434.

The dict of attributes that the program gives is a list of pairs, in the order of the dict.  The values of an attribute are a list.
-/
namespace Verif.ClientTree
open Verif.Ldap Verif.Syntax

abbrev Given := List (PyStr × List PyStr)

/-- The key of ldapsyntax.py:413-415. -/
def classKey : PyStr := .text "objectClass".toList

/-- ldapsyntax.py:412-415: the object classes, and what is left in the dict of the program. -/
def takeClasses (g : Given) : Given × Given :=
  match g.lookup classKey with
  | some (v :: vs) => ([(classKey, v :: vs)], g.filter fun p => p.1 ≠ classKey)
  | _ => ([], g)

/-- ldapsyntax.py:416 `sorted(attributes.items())`: the keys differ, so only they are compared; texts and octets cannot be compared.
The order of texts is that of their UTF-8 octets. -/
def sortGiven (g : Given) : Py Given :=
  if g.all (fun p => match p.1 with | .text _ => true | .bytes _ => false) ||
      g.all (fun p => match p.1 with | .text _ => false | .bytes _ => true) then .ok (Server.sortItems g)
  else .error .typeError

/-- ldapsyntax.py:422-430, pureldap.py:1261-1268: one attribute of the request. -/
def attributeObj (p : PyStr × List PyStr) : Obj :=
  .seq .sequence 0x10 [.oct .octetString 0x04 p.1.toBytes, .seq .set 0x11 (p.2.map fun v => .oct .octetString 0x04 v.toBytes)]

/-- ldapsyntax.py:409-434 `addChild(rdn, attributes)`: the request with the DN of the new entry, or the exception; and the dict of
the program afterwards. -/
def addChild (U : Unicode) (s : St) (rdn : Str) (g : Given) : Except Err (Obj × Dn.Dn) × Given :=
  if s.deleted then (.error .deleted, g)
  else
    match sortGiven (takeClasses g).2 with
    | .error e => (.error (.py e), (takeClasses g).2)
    | .ok l =>
      match Dn.Rdn.parse U rdn with
      | .error e => (.error (.py e), (takeClasses g).2)
      | .ok r => (.ok (.addRequest 0x48 (.bytes (Utf8.encode (Dn.Dn.text (r :: s.dn))))
          (.seq .sequence 0x10 (((takeClasses g).1 ++ l).map attributeObj)), r :: s.dn), (takeClasses g).2)

/-- ldapsyntax.py:397-407 `_cbAddDone`: the entry that the program gets.  Referrals are not kept by the decoder.  A result code that
is not an integer raises something else. -/
def added (U : Unicode) (dn : Dn.Dn) : Obj → Except Err St
  | .result .addResponse _ (.int code) matched _ _ =>
    if code ≠ 0 then .error (.ldap code)
    else if noDn matched then .ok (init U dn [] false) else .error (.py .assertionError)
  | _ => .error (.py .assertionError)

/-- ldapsyntax.py:388-393 `delete`: the request. -/
def deleteRequest (s : St) : Except Err Obj := if s.deleted then .error .deleted else .ok (.oct .delRequest 0x4A (Utf8.encode s.dn.text))

/-- ldapsyntax.py:394 the entry of the client once the request is sent. -/
def deleteSent (s : St) : St := { s with deleted := true }

/-- ldapsyntax.py:377-386 `_cbDeleteDone`: the exception, if there is one. -/
def deleteDone : Obj → Option Err
  | .result .delResponse _ (.int code) matched _ _ =>
    if code ≠ 0 then some (.ldap code) else if noDn matched then none else some (.py .assertionError)
  | .result _ _ (.int code) _ _ _ | .extResponse _ (.int code) _ _ _ _ => some (.ldap code)
  | _ => some (.py .assertionError)

/-- ldapsyntax.py:360-375 `move(newDN)`: the request and the DN the entry will have. -/
def move (U : Unicode) (s : St) (newDN : Str) : Except Err (Obj × Dn.Dn) :=
  if s.deleted then .error .deleted
  else
    match Dn.Dn.parse U newDN with
    | .error e => .error (.py e)
    | .ok [] => .error (.py .indexError)
    | .ok (r :: p) => .ok (.modifyDN 0x4C (.bytes (Utf8.encode s.dn.text)) (.bytes (Utf8.encode (Dn.Rdn.text r))) (.int 1)
        (.bytes (Utf8.encode (Dn.Dn.text p))), r :: p)

/-- ldapsyntax.py:350-358 `_cbMoveDone` -/
def moved (s : St) (dn : Dn.Dn) : Obj → St × Option Err
  | .result .modifyDNResponse _ (.int code) matched _ _ =>
    if code ≠ 0 then (s, some (.ldap code))
    else if noDn matched then ({ s with dn := dn }, none) else (s, some (.py .assertionError))
  | _ => (s, some (.py .assertionError))

end Verif.ClientTree
