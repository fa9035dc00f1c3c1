import Verif.Model.SetPassword
import Verif.Model.PasswordRequest
import Verif.Model.FetchSchema
import Verif.Model.Ldif
/-
Model of changing the password of an entry everywhere: /repo/ldaptor/samba/smbpassword.py,
`setPassword_Samba` and `setPasswordMaybe_Samba` of /repo/ldaptor/protocols/ldap/ldapsyntax.py:469-531, and the two steps of
`setPassword`, ldapsyntax.py:466-467, 502, as steps of `Model/SetPassword`.

The hash functions of passlib are parameters, and so is `str.upper`.  What comes back from the server is a parameter as well
(`Net`); `Spec/SambaPassword` says when it is what a server says.  The style that raises `RuntimeError` (ldapsyntax.py:498-499)
is not modelled: nothing in the library asks for it.
-/
namespace Verif.SambaPassword
open Verif.Ldap Verif.Syntax Verif.SetPassword

/-- What is not in the library: `passlib.hash.nthash.hash(x).encode("ascii").upper()` of a text, the same of `lmhash`,
`config.useLMhash()`, and `str.upper`. -/
structure Outside where
  nt : Str → Bytes
  lm : PyStr → Py Bytes
  useLM : Bool
  upper : Str → Str

/-- smbpassword.py:6-8 `nthash`; passlib decodes octets as UTF-8. -/
def nthash (X : Outside) : PyStr → Py Bytes
  | .text s => .ok (X.nt (s.take 128))
  | .bytes b =>
    match Utf8.decode (b.take 128) with
    | .ok s => .ok (X.nt s)
    | .error e => .error e

/-- smbpassword.py:11-18 `lmhash_locked` -/
def lmhashLocked : Bytes := List.replicate 32 0x58

/-- smbpassword.py:21-32 `lmhash` -/
def lmhash (X : Outside) (password : PyStr) : Py Bytes := if X.useLM then X.lm password else .ok lmhashLocked

/-- The two styles of ldapsyntax.py:492-497. -/
inductive Style where
  | sambaSamAccount
  | sambaAccount
  deriving DecidableEq, Repr

/-- ldapsyntax.py:493, 496 -/
def Style.ntKey : Style → String
  | .sambaSamAccount => "sambaNTPassword"
  | .sambaAccount => "ntPassword"

/-- ldapsyntax.py:494, 497 -/
def Style.lmKey : Style → String
  | .sambaSamAccount => "sambaLMPassword"
  | .sambaAccount => "lmPassword"

/-- ldapsyntax.py:485-497: `setPassword_Samba` up to `commit`. -/
def setHashes (U : Unicode) (X : Outside) (s : St) (password : PyStr) (style : Style) : St × Option Err :=
  if s.deleted then (s, some .deleted)
  else
    match nthash X password with
    | .error e => (s, some (.py e))
    | .ok nt =>
      match lmhash X password with
      | .error e => (s, some (.py e))
      | .ok lm =>
        match setItem U s (.text style.ntKey.toList) [.bytes nt] with
        | (s, some e) => (s, some e)
        | (s, none) => setItem U s (.text style.lmKey.toList) [.bytes lm]

/-- What `setPasswordMaybe_Samba` does. -/
inductive Plan where
  | fetch
  | set (style : Style)
  | nothing
  deriving DecidableEq, Repr

/-- ldapsyntax.py:524: `to_bytes(s.upper())` -/
def upperOctets (X : Outside) : PyStr → Bytes
  | .text s => Utf8.encode (X.upper s)
  | .bytes b => b.map Ldif.upperByte

/-- ldapsyntax.py:524-530, for these object classes. -/
def classPlan (X : Outside) (classes : List PyStr) : Plan :=
  if Server.ascii "SAMBAACCOUNT" ∈ classes.map (upperOctets X) then .set .sambaAccount
  else if Server.ascii "SAMBASAMACCOUNT" ∈ classes.map (upperOctets X) then .set .sambaSamAccount
  else .nothing

/-- ldapsyntax.py:516-530 -/
def plan (U : Unicode) (X : Outside) (s : St) : Except Err Plan :=
  match target U s (.text "objectClass".toList) with
  | .ok p => .ok (classPlan X p.2)
  | .error (.py .keyError) => .ok (if s.complete then classPlan X [] else .fetch)
  | .error e => .error e

/-- What comes back to the client: the response to a request, and the entries a search with the scope of the base object finds,
given the state of the server. -/
structure Net where
  ask : Obj → Server.State → Server.State × Obj
  find : Dn.Dn → Server.State → Except Err (List Attrs)

/-- ldapsyntax.py:546-548 `_ebSetPassword_one`: `fail.trap(LDAPException, DNNotPresentError)` -/
def failure : Err → Outcome Err
  | .ldap code => .trapped (.ldap code)
  | .notPresent => .trapped .notPresent
  | e => .other e

def outcome : Option Err → Outcome Err
  | none => .success
  | some e => failure e

/-- The entry of the client, and the server. -/
abbrev Both := St × Server.State

/-- ldapsyntax.py:445-464 `setPassword_ExtendedOperation` -/
def extendedOperation (net : Net) (password : PyStr) (w : Both) : Both × Outcome Err :=
  match PasswordRequest.request w.1 password with
  | .error e => (w, failure e)
  | .ok r => ((w.1, (net.ask r w.2).1), outcome (PasswordRequest.answered (net.ask r w.2).2))

/-- ldapsyntax.py:469-500 `setPassword_Samba` -/
def setSamba (env : Server.Env) (X : Outside) (net : Net) (password : PyStr) (style : Style) (w : Both) : Both × Outcome Err :=
  match setHashes env.U X w.1 password style with
  | (s, some e) => ((s, w.2), failure e)
  | (s, none) =>
    match commit s with
    | .error e => ((s, w.2), failure e)
    | .ok none => ((s, w.2), .success)
    | .ok (some ms) =>
      let a := net.ask (Session.commitRequest s.dn ms) w.2
      let r := committed env s a.2
      ((r.1, a.1), outcome r.2)

/-- ldapsyntax.py:504-531 `setPasswordMaybe_Samba`.  It calls itself after each fetch; `none`: it has not ended after `fuel`
fetches. -/
def maybeSamba (env : Server.Env) (X : Outside) (net : Net) (password : PyStr) : Nat → Both → Option (Both × Outcome Err)
  | fuel, w =>
    match plan env.U X w.1 with
    | .error e => some (w, failure e)
    | .ok .nothing => some (w, .success)
    | .ok (.set style) => some (setSamba env X net password style w)
    | .ok .fetch =>
      match fuel with
      | 0 => none
      | fuel + 1 =>
        match fetch w.1 with
        | .error e => some (w, failure e)
        | .ok () =>
          match net.find w.1.dn w.2 with
          | .error e => some (w, failure e)
          | .ok results =>
            match fetched env w.1 results [.text "objectClass".toList] with
            | (s, some e) => some ((s, w.2), failure e)
            | (s, none) => maybeSamba env X net password fuel (s, w.2)

/-- The names of the steps. -/
inductive Name where
  | extendedOperation
  | samba
  deriving DecidableEq, Repr

/-- The steps an entry has, in the order of `dir`; ldapsyntax.py:466-467, 502.  The second step is given up after `fuel`
fetches; how that counts does not matter. -/
def steps (env : Server.Env) (X : Outside) (net : Net) (fuel : Nat) (password : PyStr) : List (Step Both Err Name) :=
  [⟨.extendedOperation, 0, extendedOperation net password⟩,
   ⟨.samba, 20, fun w => (maybeSamba env X net password fuel w).getD (w, .other .lookup)⟩]

/-- ldapsyntax.py:572-584: `entry.setPassword(newPasswd)` -/
def change (env : Server.Env) (X : Outside) (net : Net) (fuel : Nat) (password : PyStr) (w : Both) : Both × Report Err Name :=
  setPassword (steps env X net fuel password) w

end Verif.SambaPassword
