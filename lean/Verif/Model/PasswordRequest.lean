import Verif.Model.Session
/-
Model of changing a password by the extended operation of RFC 3062: `LDAPPasswordModifyRequest`,
/repo/ldaptor/protocols/pureldap.py:1538-1606, and `setPassword_ExtendedOperation` of an entry of the client,
/repo/ldaptor/protocols/ldap/ldapsyntax.py:436-464.

Texts given as a part are the octets that `to_bytes` makes of them (pureber.py:208).
-/
namespace Verif.PasswordRequest
open Verif.Ldap Verif.Syntax

/-- One optional part; the classes and their tags are those of pureldap.py:1538-1557. -/
def part (cls : Cls) (tag : UInt8) : Option Bytes → List Obj
  | some b => [.oct cls tag b]
  | none => []

/-- pureldap.py:1588-1602: the parts of the request that are there, in this order. -/
def parts (user old new : Option Bytes) : List Obj := part .pmUser 0x80 user ++ part .pmOld 0x81 old ++ part .pmNew 0x82 new

/-- pureldap.py:1604-1606: `BERSequence(l).toWire()` -/
def value (user old new : Option Bytes) : Py Bytes := toWire (.seq .sequence 0x10 (parts user old new))

/-- pureldap.py:1568-1606 `LDAPPasswordModifyRequest(userIdentity=…, oldPasswd=…, newPasswd=…)` -/
def passwordModifyRequest (user old new : Option Bytes) : Py Obj := do
  let v ← value user old new
  return .extRequest 0x57 Server.passwordModifyOid (.bytes v)

/-- ldapsyntax.py:457-461: what `setPassword_ExtendedOperation` sends. -/
def request (s : St) (password : PyStr) : Except Err Obj :=
  if s.deleted then .error .deleted
  else match passwordModifyRequest (some (Utf8.encode s.dn.text)) none (some password.toBytes) with
    | .ok r => .ok r
    | .error e => .error (.py e)

/-- ldapsyntax.py:436-443 `_cbSetPassword_ExtendedOperation`: the exception, if there is one.  Referrals are not kept by the
decoder (pureldap.py:1651-1654).  A result code that is not an integer raises something else. -/
def answered : Obj → Option Err
  | .extResponse _ (.int code) matched _ _ _ =>
    if code ≠ 0 then some (.ldap code)
    else if noDn matched then none else some (.py .assertionError)
  | _ => some (.py .assertionError)

end Verif.PasswordRequest
