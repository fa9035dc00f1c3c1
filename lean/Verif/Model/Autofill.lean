import Verif.Model.Syntax
import Verif.Model.Samba
/-
Model of `LDAPEntryWithAutoFill`, /repo/ldaptor/protocols/ldap/ldapsyntax.py:779-798, and of the autofillers of
/repo/ldaptor/protocols/ldap/autofill.

What the fillers of this library set when they are told of a change is told to them again, and then they set nothing; the model
gives a bound on the depth of such calls, Python has its own.  Sets of values are as in `Model/Syntax`.
-/
namespace Verif.Autofill
open Verif.Syntax

/-- The autofillers: posixAccount.py:6, sambaAccount.py:4, sambaSamAccount.py:4. -/
inductive Filler where
  | posix
  | samba
  | sam (c : Samba.SamConfig)
  deriving DecidableEq, Repr

/-- What `start` raises: `ObjectMissingObjectClassException`, or something else. -/
inductive Failure where
  | missingClass
  | raised (e : Err)
  deriving DecidableEq, Repr

/-- The argument of `int`; for octets, Python reads them as ASCII. -/
def digits : PyStr → Str
  | .text s => s
  | .bytes b => b.map fun x => Char.ofNat x.toNat

/-- `assert name in ldapObject`, and `ldapObject[name]` -/
def valuesOf (U : Unicode) (s : St) (name : Str) : Except Err (List PyStr) :=
  match target U s (.text name) with
  | .ok p => .ok p.2
  | .error (.py .keyError) => .error (.py .assertionError)
  | .error e => .error e

/-- The end of `notify`: what is set once the values are known. -/
def computed (r : Py (Option (Str × List Str))) : Except Err (Option (Str × List Str)) :=
  match r with
  | .ok x => .ok x
  | .error e => .error (.py e)

/-- sambaAccount.py:23-42, sambaSamAccount.py:43-61, posixAccount.py:46-47 `notify`: the attribute that is set, if any, with its
values. -/
def response (U : Unicode) (s : St) (key : PyStr) : Filler → Except Err (Option (Str × List Str))
  | .posix => .ok none
  | .samba =>
    if key = .text "uidNumber".toList then
      match valuesOf U s "uidNumber".toList with
      | .error e => .error e
      | .ok vs => computed (Samba.notifyAccount "uidNumber".toList (vs.map digits))
    else if key = .text "gidNumber".toList then
      match valuesOf U s "gidNumber".toList with
      | .error e => .error e
      | .ok vs => computed (Samba.notifyAccount "gidNumber".toList (vs.map digits))
    else .ok none
  | .sam c =>
    if key = .text "uidNumber".toList then
      match valuesOf U s "uidNumber".toList with
      | .error e => .error e
      | .ok vs => computed (Samba.notifySam c "uidNumber".toList (vs.map digits))
    else if c.fixedPrimaryGroupSID = none ∧ key = .text "gidNumber".toList then
      match valuesOf U s "gidNumber".toList with
      | .error e => .error e
      | .ok vs => computed (Samba.notifySam c "gidNumber".toList (vs.map digits))
    else .ok none

/-- One call of `notify`; `again` is what the record of a change brings about. -/
def notifyOne (U : Unicode) (again : St → PyStr → St × Option Err) (key : PyStr) (s : St) (f : Filler) : St × Option Err :=
  match response U s key f with
  | .error e => (s, some e)
  | .ok none => (s, none)
  | .ok (some (k, vs)) =>
    match setItem U s (.text k) (vs.map .text) with
    | (s', some e) => (s', some e)
    | (s', none) => again s' (.text k)

/-- ldapsyntax.py:797-798: the loop. -/
def notifyAll (U : Unicode) (again : St → PyStr → St × Option Err) (key : PyStr) : St → List Filler → St × Option Err
  | s, [] => (s, none)
  | s, f :: fs =>
    match notifyOne U again key s f with
    | (s', some e) => (s', some e)
    | (s', none) => notifyAll U again key s' fs

/-- ldapsyntax.py:795-798 `journal`, once the change is recorded, for calls that deep at most. -/
def told (U : Unicode) (fs : List Filler) : Nat → St → PyStr → St × Option Err
  | 0, s, _ => (s, none)
  | n + 1, s, key => notifyAll U (told U fs n) key s fs

/-- An edit of an entry with autofillers: `Model/Syntax.edit`, where each record of a change is followed by the calls of
`notify`.  ldapsyntax.py:99-117: a value is added or removed after that, the set is cleared before it; 301-314: the attribute is set
or deleted before it. -/
def edit (U : Unicode) (fs : List Filler) (depth : Nat) (s : St) : Edit → St × Option Err
  | .add k v =>
    match target U s k with
    | .error e => (s, some e)
    | .ok p =>
      match told U fs depth (s.record ⟨.add, p.1, [v]⟩) p.1 with
      | (s', some e) => (s', some e)
      | (s', none) =>
        match AttributeSet.add p.2 v with
        | .ok vs' => (s'.put U p.1 vs', none)
        | .error e => (s', some (.py e))
  | .update k vs =>
    match target U s k with
    | .error e => (s, some e)
    | .ok p =>
      match told U fs depth (s.record ⟨.add, p.1, mkSet vs⟩) p.1 with
      | (s', some e) => (s', some e)
      | (s', none) => (s'.put U p.1 (AttributeSet.update p.2 vs), none)
  | .remove k v =>
    match target U s k with
    | .error e => (s, some e)
    | .ok p =>
      if v ∈ p.2 then
        match canRemove s p.1 v with
        | some e => (s, some e)
        | none =>
          match told U fs depth (s.record ⟨.delete, p.1, [v]⟩) p.1 with
          | (s', some e) => (s', some e)
          | (s', none) =>
            match AttributeSet.remove p.2 v with
            | .ok vs' => (s'.put U p.1 vs', none)
            | .error e => (s', some (.py e))
      else (s, some .lookup)
  | .clear k =>
    match target U s k with
    | .error e => (s, some e)
    | .ok p =>
      match clearValues U s p.1 with
      | (s', some e) => (s', some e)
      | (s', none) => told U fs depth s' p.1
  | .set k vs =>
    match setItem U s k vs with
    | (s', some e) => (s', some e)
    | (s', none) => told U fs depth s' k
  | .del k =>
    match delItem U s k with
    | (s', some e) => (s', some e)
    | (s', none) => told U fs depth s' k

/-- `assert name not in ldapObject`, `ldapObject[name] = [value]`, for one after the other. -/
def fresh (U : Unicode) (fs : List Filler) (depth : Nat) : St → List (Str × Str) → St × Option Err
  | s, [] => (s, none)
  | s, (k, v) :: l =>
    match target U s (.text k) with
    | .ok _ => (s, some (.py .assertionError))
    | .error (.py .keyError) =>
      match edit U fs depth s (.set (.text k) [.text v]) with
      | (s', some e) => (s', some e)
      | (s', none) => fresh U fs depth s' l
    | .error e => (s, some e)

/-- The object class that is needed, and the attributes that are set to begin with: posixAccount.py:24-30, sambaAccount.py:5-21,
sambaSamAccount.py:12-35. -/
def Filler.class : Filler → Str
  | .posix => "posixAccount".toList
  | .samba => "sambaAccount".toList
  | .sam _ => "sambaSamAccount".toList

def Filler.initial : Filler → List (Str × Str)
  | .posix => [("loginShell".toList, "/bin/sh".toList)]
  | .samba => [("acctFlags".toList, "[UX         ]".toList), ("pwdLastSet".toList, "0".toList), ("logonTime".toList, "0".toList),
      ("logoffTime".toList, "0".toList), ("pwdCanChange".toList, "0".toList), ("pwdMustChange".toList, "0".toList)]
  | .sam c => [("sambaAcctFlags".toList, "[UX         ]".toList), ("sambaPwdLastSet".toList, "1".toList), ("sambaLogonTime".toList, "0".toList),
      ("sambaLogoffTime".toList, "0".toList), ("sambaPwdCanChange".toList, "0".toList), ("sambaPwdMustChange".toList, "0".toList)] ++
      match c.fixedPrimaryGroupSID with
      | none => []
      | some n => [("sambaPrimaryGroupSID".toList, c.sid n)]

/-- sambaSamAccount.py:37-41: the loop over the attributes; the filler itself is not yet among those that are told. -/
def catchUp (U : Unicode) (fs : List Filler) (depth : Nat) (f : Filler) : St → List PyStr → St × Option Err
  | s, [] => (s, none)
  | s, k :: ks =>
    match notifyOne U (told U fs depth) k s f with
    | (s', some e) => (s', some e)
    | (s', none) => catchUp U fs depth f s' ks

/-- `start`; for `Autofill_posix` up to line 32, where the searches begin. -/
def start (env : Server.Env) (fs : List Filler) (depth : Nat) (s : St) (f : Filler) : St × Option Failure :=
  match valuesOf env.U s "objectClass".toList with
  | .error e => (s, some (.raised e))
  | .ok vs =>
    if PyStr.text f.class ∈ vs then
      match fresh env.U fs depth s f.initial with
      | (s', some e) => (s', some (.raised e))
      | (s', none) =>
        match f with
        | .sam _ =>
          match catchUp env.U fs depth f s' (keys env s'.attrs) with
          | (s'', some e) => (s'', some (.raised e))
          | (s'', none) => (s'', none)
        | _ => (s', none)
    else (s, some .missingClass)

/-- posixAccount.py:11-22 `_cb_gotNumbers`, when both numbers were found. -/
def gotNumbers (U : Unicode) (fs : List Filler) (depth : Nat) (s : St) (uid gid : Int) : St × Option Err :=
  match edit U fs depth s (.set (.text "uidNumber".toList) [.text (Decimal.ofInt uid)]) with
  | (s', some e) => (s', some e)
  | (s', none) => edit U fs depth s' (.set (.text "gidNumber".toList) [.text (Decimal.ofInt gid)])

/-- ldapsyntax.py:784-791 `addAutofiller`: who is told of changes from then on. -/
def added (fs : List Filler) (f : Filler) : Option Failure → List Filler
  | none => fs ++ [f]
  | some _ => fs

end Verif.Autofill
