import Verif.Model.LdifTree
import Verif.Model.Server
/-
Model of `LDIFTreeEntry.commit` (/repo/ldaptor/ldiftree.py:300-312) and of a modify request to a server whose tree is on disk
(/repo/ldaptor/protocols/ldap/ldapserver.py:401-416).

Any system call may raise an `OSError` (a full disk, a limit, a permission): which of them do is an argument.  A call that
raises has no effect, but for a write, which may have written some octets.  Log messages are not modelled.
-/
namespace Verif.LdifTree
open Verif.Server (Env Act Fault)
open Verif.Ldap (Obj PyVal)

/-- What has been done when a system call raises an `OSError`, in a write after `n` octets. -/
def torn (fs : Fs) (n : Nat) : Step → Fs
  | .write s (.ok b) =>
    match apply fs (.write s (.ok (b.take n))) with
    | .ok fs' => fs'
    | .error _ => fs
  | _ => fs

/-- A sequence of system calls, of which some raise an `OSError`; whether it was completed. -/
def exec (fs : Fs) : List (Option Nat) → List Step → Fs × Bool
  | _, [] => (fs, true)
  | some n :: _, s :: _ => (torn fs n s, false)
  | none :: faults, s :: l =>
    match apply fs s with
    | .ok fs' => exec fs' faults l
    | .error _ => (fs, false)
  | [], s :: l =>
    match apply fs s with
    | .ok fs' => exec fs' [] l
    | .error _ => (fs, false)

/-- ldiftree.py:300-312 `commit`: what its Deferred gives.  `eb_` gives `False` for whatever exception `_putEntry` raises. -/
def commit (env : Env) (fs : Fs) (h : Handle) (uuid : Str) (faults : List (Option Nat)) : Except Err (Fs × Bool) := do
  let base ← stripDir h.path
  return exec fs faults (putEntry base uuid (Ldif.toWire env ⟨h.dn, h.attrs⟩))

/-- What `LDAPServer` makes of an exception of the tree: those that are no `LDAPException` are reported as `other`. -/
def faultOf : Err → Fault
  | .py e => .py e
  | _ => .py .other

/-- ldapserver.py:401-405 and delta.py:157-181: what a modify request asks for. -/
def modifyWanted (env : Env) (object : PyVal) (mods : List Obj) (controls : Option (List (PyVal × PyVal × PyVal))) :
    Act (Dn.Dn × List Mod) := do
  Server.checkControls controls
  let ms ← Server.lift (Ldap.mapM' Server.modOf mods)
  let d ← Server.lift (Server.readDn env.U object)
  return (d, ms)

/-- ldapserver.py:401-416 `handle_LDAPModifyRequest` and delta.py:183-192 `ModifyOp.patch`, for a tree on disk: the file system afterwards, and the
exception or response. -/
def handleModify (env : Env) (fs : Fs) (root : Handle) (uuid : Str) (faults : List (Option Nat)) (object : PyVal) (mods : List Obj)
    (controls : Option (List (PyVal × PyVal × PyVal))) : Fs × Act Obj :=
  match modifyWanted env object mods controls with
  | .error f => (fs, .error f)
  | .ok (d, ms) =>
    match lookup env fs root d with
    | .error e => (fs, .error (faultOf e))
    | .ok h =>
      match Delta.patchAll env.U ms ⟨h.dn, h.attrs⟩ with
      | (_, some x) => (fs, .error (.py x))
      | (e, none) =>
        match commit env fs { h with attrs := e.attrs } uuid faults with
        | .error x => (fs, .error (faultOf x))
        | .ok (fs', _) => (fs', .ok (Server.respond .modifyResponse 0x47 0 .none))

end Verif.LdifTree
