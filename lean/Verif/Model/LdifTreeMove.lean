import Verif.Model.LdifTreeCommit
/-
Model of `LDIFTreeEntry.move` (/repo/ldaptor/ldiftree.py:314-363) and of a modify DN request to a server whose tree is on disk
(/repo/ldaptor/protocols/ldap/ldapserver.py:368-397).

The directory that the code renames takes everything below it along.  As in Model/LdifTreeCommit, any system call may raise
another `OSError`.
-/
namespace Verif.LdifTree
open Verif.Server (Env Act Fault)
open Verif.Ldap (Obj PyVal)

/-! Paths and renaming. -/

/-- `s.rstrip("/")` -/
def rstripSlash (s : Str) : Str := (s.reverse.dropWhile (· = '/')).reverse

/-- The text up to and with the last slash, and the rest. -/
def splitPath (s : Str) : Str × Str :=
  ((s.reverse.dropWhile (· ≠ '/')).reverse, (s.reverse.takeWhile (· ≠ '/')).reverse)

/-- `os.path.dirname`: the text before the last slash, without the slashes at its end unless it has nothing else. -/
def dirname (s : Str) : Str :=
  if (splitPath s).1.all (· = '/') then (splitPath s).1 else rstripSlash (splitPath s).1

/-- `os.path.splitext` of a path: as that of its last component. -/
def splitExtPath (s : Str) : Str × Str := ((splitPath s).1 ++ (splitExt (splitPath s).2).1, (splitExt (splitPath s).2).2)

/-- What a path becomes if `p` is renamed to `q`. -/
def movedPath (p q x : Path) : Path := if p.isPrefixOf x then q ++ x.drop p.length else x

/-- A directory and everything below it under a new name. -/
def moveAll (fs : Fs) (p q : Path) : Fs := fs.map fun e => (movedPath p q e.1, e.2)

/-- There is something in the directory. -/
def hasEntries (fs : Fs) (q : Path) : Bool := fs.any fun e => decide (q ≠ e.1) && q.isPrefixOf e.1

/-- `os.rename(s, t)` of a file or a directory, as on POSIX systems: a directory replaces an empty one only, and cannot be moved
below itself. -/
def renameAny (fs : Fs) (s t : Str) : Except Err Fs := do
  let p ← resolve fs s
  let q ← resolve fs t
  match look fs p, look fs q with
  | none, _ => .error .noEnt
  | some (.file _), _ => apply fs (.rename s t)
  | some .dir, some (.file _) => .error .notDir
  | some .dir, some .dir =>
    if p = q then .ok fs
    else if p.isPrefixOf q then .error .invalid
    else if hasEntries fs q then .error .notEmpty
    else .ok (moveAll (erase fs q) p q)
  | some .dir, none => if p.isPrefixOf q then .error .invalid else .ok (moveAll fs p q)

/-! Moving an entry. -/

/-- The file system, with the exception or what is given. -/
abbrev Done (α : Type) := Fs × Except Err α

/-- ldiftree.py:349-355: the directory of the entry, if it has one. -/
def moveDir (fs : Fs) (s t : Str) (fault : Option Nat) : Done Unit :=
  match fault with
  | some _ => (fs, .error (.py .osError))
  | none =>
    match renameAny fs s t with
    | .ok fs' => (fs', .ok ())
    | .error .noEnt => (fs, .ok ())
    | .error e => (fs, .error e)

/-- ldiftree.py:358-360: the file of the entry. -/
def moveFile (fs : Fs) (s t : Str) (fault : Option Nat) : Done Unit :=
  match fault with
  | some _ => (fs, .error (.py .osError))
  | none =>
    match renameAny fs s t with
    | .ok fs' => (fs', .ok ())
    | .error e => (fs, .error e)

/-- ldiftree.py:348-363: the renaming, and the commit of the entry under its new name.  The faults are those of the two
renamings and of the commit. -/
def moveFiles (env : Env) (fs : Fs) (h : Handle) (dstdir : Str) (newDN : Dn.Dn) (newRDN : Dn.Rdn) (attrs : Attrs) (uuid : Str)
    (f1 f2 : Option Nat) (faults : List (Option Nat)) : Done Bool :=
  match moveDir fs h.path (join dstdir (dirName newRDN)) f1 with
  | (fs1, .error e) => (fs1, .error e)
  | (fs1, .ok ()) =>
    if (splitExtPath h.path).2 ≠ ".dir".toList then (fs1, .error (.py .assertionError))
    else
      match moveFile fs1 ((splitExtPath h.path).1 ++ ".ldif".toList) (join dstdir (ldifName newRDN)) f2 with
      | (fs2, .error e) => (fs2, .error e)
      | (fs2, .ok ()) =>
        match commit env fs2 ⟨join dstdir (dirName newRDN), newDN, attrs⟩ uuid faults with
        | .error e => (fs2, .error e)
        | .ok (fs3, b) => (fs3, .ok b)

/-- ldiftree.py:342-346: the directory into which the entry is moved. -/
def targetDir (h : Handle) : Option Handle → Str
  | none => dirname h.path
  | some p => p.path

/-- ldiftree.py:334-363 `_move2` -/
def move2 (env : Env) (fs : Fs) (h : Handle) (newParent : Option Handle) (newDN : Dn.Dn) (uuid : Str)
    (f1 f2 : Option Nat) (faults : List (Option Nat)) : Done Bool :=
  match h.dn, newDN with
  | [], _ => (fs, .error (.py .indexError))
  | old :: _, [] =>
    match Tree.rdnLoop env.U (fun v s => AttributeSet.remove s v) old ⟨h.dn, h.attrs⟩ with
    | (_, x) => (fs, .error (.py (x.getD .indexError)))
  | old :: _, new :: _ =>
    match Tree.rdnLoop env.U (fun v s => AttributeSet.remove s v) old ⟨h.dn, h.attrs⟩ with
    | (_, some x) => (fs, .error (.py x))
    | (e, none) =>
      match Tree.rdnLoop env.U (fun v s => AttributeSet.add s v) new e with
      | (_, some x) => (fs, .error (.py x))
      | (e, none) =>
        moveFiles env fs h (targetDir h newParent) newDN new e.attrs uuid f1 f2 faults

/-- ldiftree.py:322-326: the path and the DN of the root of the tree. -/
def climb : Dn.Dn → Str → Str × Dn.Dn
  | [], p => (p, [])
  | r :: up, p => if Dn.Dn.text (r :: up) = [] then (p, r :: up) else climb up (dirname p)

/-- ldiftree.py:314-331 `move` and `_move` -/
def move (env : Env) (fs : Fs) (h : Handle) (newDN : Dn.Dn) (uuid : Str) (f1 f2 : Option Nat) (faults : List (Option Nat)) : Done Bool :=
  if !(Dn.Dn.eq env.U (Dn.Dn.up newDN) (Dn.Dn.up h.dn)) then
    match make env fs (climb h.dn h.path).1 (climb h.dn h.path).2 with
    | .error e => (fs, .error e)
    | .ok root =>
      match lookup env fs root (Dn.Dn.up newDN) with
      | .error e => (fs, .error e)
      | .ok p => move2 env fs h (some p) newDN uuid f1 f2 faults
  else move2 env fs h none newDN uuid f1 f2 faults

/-- ldapserver.py:369-384: what a modify DN request asks for. -/
def modifyDNWanted (env : Env) (entry newrdn del sup : PyVal) (controls : Option (List (PyVal × PyVal × PyVal))) :
    Act (Dn.Dn × Dn.Dn) := do
  Server.checkControls controls
  let d ← Server.lift (Server.readDn env.U entry)
  let r ← Server.lift (Server.readRdn env.U newrdn)
  Server.checkDeleteOld del
  let s ← Server.lift (Server.superior env.U d sup)
  return (d, r :: s)

/-- ldapserver.py:368-397 `handle_LDAPModifyDNRequest`, for a tree on disk: the file system afterwards, and the exception or
response. -/
def handleModifyDN (env : Env) (fs : Fs) (root : Handle) (uuid : Str) (f1 f2 : Option Nat) (faults : List (Option Nat))
    (entry newrdn del sup : PyVal) (controls : Option (List (PyVal × PyVal × PyVal))) : Fs × Act Obj :=
  match modifyDNWanted env entry newrdn del sup controls with
  | .error f => (fs, .error f)
  | .ok (d, newDN) =>
    match lookup env fs root d with
    | .error e => (fs, .error (faultOf e))
    | .ok h =>
      match move env fs h newDN uuid f1 f2 faults with
      | (fs', .error e) => (fs', .error (faultOf e))
      | (fs', .ok _) => (fs', .ok (Server.respond .modifyDNResponse 0x4D 0 .none))

end Verif.LdifTree
