import Verif.Model.Server
import Verif.Model.Client
import Verif.Model.ClientSearch
import Verif.Model.Session
/-
Model of /repo/ldaptor/protocols/ldap/svcbindproxy.py `ServiceBindingProxy`: what becomes of a bind request.

What the proxied server does with the searches and binds of the proxy is given by two functions; every search is made once.
The connection to it is there.

Simplifications: the year has four digits.  With SASL credentials, a pair, the bind request of the proxy cannot be encoded; this
is an outcome that is no response.  The messages of error responses are left out, and so is the matched DN of a success.  The
time is the same for all searches of one request.
-/
namespace Verif.ServiceBind
open Verif.Ldap Verif.Server

/-- A moment as `datetime.now()` shows it: in the local time of the machine. -/
structure Time where
  year : Nat
  month : Nat
  day : Nat
  hour : Nat
  minute : Nat
  second : Nat
  deriving DecidableEq, Repr

/-- One digit. -/
def digit (n : Nat) : UInt8 := UInt8.ofNat (48 + n % 10)
def two (n : Nat) : Bytes := [digit (n / 10), digit n]
def four (n : Nat) : Bytes := [digit (n / 1000), digit (n / 100), digit (n / 10), digit n]

/-- svcbindproxy.py:72-74 `timestamp`: `now.strftime("%Y%m%d%H%M%SZ")`, for years of four digits. -/
def timestamp (t : Time) : Bytes := four t.year ++ two t.month ++ two t.day ++ two t.hour ++ two t.minute ++ two t.second ++ [0x5A]

/-- An assertion about an attribute. -/
def ava (cls : Cls) (tag : UInt8) (a v : Bytes) : Obj := .ava cls tag (.oct .octetString 0x04 a) (.oct .octetString 0x04 v)

/-- svcbindproxy.py:83-130: the filter for one service; `dn` is that of the received request, in octets. -/
def serviceFilter (dn : Bytes) (service : Str) (t : Time) : Obj :=
  .seq .fAnd 0x80 [
    ava .fEq 0x83 (ascii "objectClass") (ascii "serviceSecurityObject"),
    ava .fEq 0x83 (ascii "owner") dn,
    ava .fEq 0x83 (ascii "cn") (Utf8.encode service),
    .seq .fOr 0x81 [.not 0x82 (.oct .fPresent 0x87 (ascii "validFrom")), ava .fLe 0x86 (ascii "validFrom") (timestamp t)],
    .seq .fOr 0x81 [.not 0x82 (.oct .fPresent 0x87 (ascii "validUntil")), ava .fGe 0x85 (ascii "validUntil") (timestamp t)]]

/-- svcbindproxy.py:82-132: the search for one service; ldapsyntax.py:676-712 with `attributes=("1.1",)`. -/
def serviceSearch (base : Dn.Dn) (dn : Bytes) (service : Str) (t : Time) : Obj :=
  Session.searchRequest base 2 0 0 0 false (serviceFilter dn service t) [ascii "1.1"]

/-- The search wants attributes, and no callback is given. -/
def options : ClientSearch.Options := ⟨false, false, fun _ => false⟩

/-- ldapsyntax.py:285-287 `bind`: the call of the client, for simple authentication. -/
def bindCall (c : Nat) (e : Syntax.St) (password : Bytes) : Client.Call :=
  .send c (.bind 0x40 (.int 3) (.bytes (Utf8.encode e.dn.text)) (.simple (.bytes password))) none

/-- How the attempts end. -/
inductive Ends where
  /-- one service let in -/
  | entry (e : Syntax.St)
  /-- no service did -/
  | exhausted
  /-- an LDAP error with this result code -/
  | ldap (code : PyVal)
  /-- another exception -/
  | other
  /-- an answer has not come yet -/
  | waiting
  deriving DecidableEq, Repr

/-- What one service says. -/
inductive Verdict where
  | yes (e : Syntax.St)
  /-- `None`, or LDAPInvalidCredentials -/
  | next
  | stop (e : Ends)
  deriving DecidableEq, Repr

/-- svcbindproxy.py:158-161 `_loopIfBindError` for an LDAP error. -/
def trapped (code : PyVal) : Verdict := if code = .int 49 then .next else .stop (.ldap code)

/-- ldapsyntax.py:291-296 `_handle_bind_msg`, and what follows. -/
def bindVerdict (e : Syntax.St) : Client.Outcome → Verdict
  | .response (.result .bindResponse _ code _ _ _) => if code = .int 0 then .yes e else trapped code
  | _ => .stop .other

/-- svcbindproxy.py:134-161: `_gotEntries`, `_loopIfNone`, `_loopIfBindError`. -/
def verdict (r : ClientSearch.Running) (bind : Syntax.St → Client.Outcome) : Verdict :=
  match r.outcome with
  | none => .stop .waiting
  | some .lost => .stop .other
  | some (.failed code _) => trapped code
  | some .finished =>
    match r.entries with
    | [] => .next
    | [e] => bindVerdict e (bind e)
    | _ => .stop .other

/-- svcbindproxy.py:76-161 `_tryService`: one service after the other. -/
def tryServices (search : Str → ClientSearch.Running) (bind : Syntax.St → Client.Outcome) : List Str → Ends
  | [] => .exhausted
  | s :: ss =>
    match verdict (search s) bind with
    | .yes e => .entry e
    | .next => tryServices search bind ss
    | .stop e => e

/-- What the client gets for its bind request. -/
inductive Reply where
  /-- a bind response with this result code -/
  | answer (code : Int)
  /-- whatever the proxied server answers: the request is passed on -/
  | forward
  | waiting
  deriving DecidableEq, Repr

/-- ldapserver.py:76-82: the result code for an LDAP error; the class for unknown codes has none, and making the response raises
AssertionError (pureldap.py:307), which is reported as `protocolError` (99-104). -/
def relayed : PyVal → Int
  | .int c => ((Errors.get c none).resultCode).getD 2
  | _ => 2

/-- svcbindproxy.py:58-70 `_maybeFallback` and ldapserver.py:76-104. -/
def reply (fallback : Bool) : Ends → Reply
  | .entry _ => .answer 0
  | .exhausted => if fallback then .forward else .answer 49
  | .ldap code => .answer (relayed code)
  | .other => .answer 2
  | .waiting => .waiting

/-- svcbindproxy.py:50-56 `_startSearch`: without services `_tryService` gives `None`, which has no `addCallback`. -/
def startSearch (services : List Str) (fallback : Bool) (search : Str → ClientSearch.Running) (bind : Syntax.St → Client.Outcome) : Reply :=
  if services = [] then .answer 2 else reply fallback (tryServices search bind services)

/-- svcbindproxy.py:165-178 `handle_LDAPBindRequest` for a received request.  The DN is octets, and `dn == ""` compares it with
text. -/
def handleBind (services : List Str) (fallback : Bool) (search : Str → ClientSearch.Running) (bind : Syntax.St → Client.Outcome)
    (version : PyVal) (_dn : Bytes) (controls : Option (List (PyVal × PyVal × PyVal))) (luck : Luck) : Reply :=
  match checkVersion version with
  | .error f => .answer (f.report luck).1
  | .ok _ =>
    match checkControls controls with
    | .error f => .answer (f.report luck).1
    | .ok _ => startSearch services fallback search bind

end Verif.ServiceBind
