import Verif.Model.Client
import Verif.Model.ClientSearch
import Verif.Model.Identity
import Verif.Model.FilterObj
import Verif.Model.Session
/-
Model of /repo/ldaptor/checkers.py `LDAPBindingChecker`: log in with a name and a password.

Simplifications: the base DN is a DN (config.py:94-103 may also give its text).  Opening the connection is left out; it may
fail, and then the login does.  No identity search is configured in a file (config.py:113-117); one given to the constructor
of the configuration is a template.
-/
namespace Verif.Checker
open Verif.Ldap Verif.FilterText

/-- The configuration: `getIdentityBaseDN` (`none`: it raises MissingBaseDNError), `identitySearch`. -/
structure Config where
  base : Option Dn.Dn
  search : Option (List (Option Str))

def hexDigits : List Char := ['0','1','2','3','4','5','6','7','8','9','a','b','c','d','e','f']

/-- One octet in `repr` of octets, between quotes `q`. -/
def reprOctet (q : Char) (b : UInt8) : Str :=
  if b = 0x5C then ['\\', '\\']
  else if b.toNat = q.toNat then ['\\', q]
  else if b = 0x09 then ['\\', 't']
  else if b = 0x0A then ['\\', 'n']
  else if b = 0x0D then ['\\', 'r']
  else if 0x20 ≤ b ∧ b < 0x7F then [Char.ofNat b.toNat]
  else ['\\', 'x', hexDigits[b.toNat / 16]?.getD '0', hexDigits[b.toNat % 16]?.getD '0']

/-- `repr(b)` for octets. -/
def reprOctets (b : Bytes) : Str :=
  let q := if (0x27 : UInt8) ∈ b ∧ (0x22 : UInt8) ∉ b then '"' else '\''
  'b' :: q :: b.flatMap (reprOctet q) ++ [q]

/-- `"%(name)s" % {"name": name}` -/
def formatted : PyStr → Str
  | .text s => s
  | .bytes b => reprOctets b

/-- config.py:105-118 `getIdentitySearch` -/
def searchText (cfg : Config) (name : PyStr) : Str :=
  match cfg.search with
  | none => Identity.defaultSearch (formatted name)
  | some t => Identity.templateSearch t (formatted name)

/-- How the Deferred of `requestAvatarId` ends. -/
inductive Result where
  /-- with the entry -/
  | granted (e : Syntax.St)
  | unauthorized
  /-- with another LDAP error -/
  | ldap (code : PyVal)
  | assertion
  | lost
  /-- not yet -/
  | waiting
  deriving DecidableEq, Repr

/-- checkers.py:62-75 `requestAvatarId`: refuse, or look up the name below the base. -/
def request (cfg : Config) (name : PyStr) : Except Result (Dn.Dn × Filter) :=
  match cfg.base with
  | none => .error .unauthorized
  | some base =>
    if name.toBytes = [] then .error .unauthorized
    else
      match parseFilter (searchText cfg name) with
      | .error _ => .error .unauthorized
      | .ok f => .ok (base, f)

/-- checkers.py:54-58: the arguments of the search; ldapsyntax.py:676-712. -/
def searchRequest (base : Dn.Dn) (f : Filter) : Obj := Session.searchRequest base 2 0 1 0 false f.obj [[]]

/-- The search wants one attribute, whose name is empty; the program gives no callback. -/
def options : ClientSearch.Options := ⟨false, false, fun _ => false⟩

/-- checkers.py:81-88 `_err`, for an LDAP error. -/
def trap (code : PyVal) : Result := if code = .int 49 ∨ code = .int 53 then .unauthorized else .ldap code

/-- checkers.py:43-50 `_found`: the entry to bind as, or the end. -/
def found (r : ClientSearch.Running) : Except Result Syntax.St :=
  match r.outcome with
  | none => .error .waiting
  | some .lost => .error .lost
  | some (.failed code _) => .error (trap code)
  | some .finished =>
    match r.entries with
    | [] => .error .unauthorized
    | [e] => .ok e
    | _ => .error .assertion

/-- checkers.py:48: the call of the client. -/
def bindCall (c : Nat) (e : Syntax.St) (password : PyStr) : Client.Call :=
  .bind c (.bytes (Utf8.encode e.dn.text)) (.bytes password.toBytes)

/-- checkers.py:39-41, 49, 81-90: what becomes of the answer to the bind request. -/
def bound (e : Syntax.St) : Client.Outcome → Result
  | .bound _ _ => .granted e
  | .failed (.result .bindResponse _ code _ _ _) => trap code
  | .failed _ => .assertion
  | _ => .lost

/-- The whole, given what becomes of the search and of the bind request. -/
def login (cfg : Config) (name : PyStr) (search : Dn.Dn → Filter → ClientSearch.Running) (bind : Syntax.St → Client.Outcome) : Result :=
  match request cfg name with
  | .error r => r
  | .ok (base, f) =>
    match found (search base f) with
    | .error r => r
    | .ok e => bound e (bind e)

end Verif.Checker
