import Verif.Model.LoadLdif
/-
Model of writing the difference of two trees as LDIF and of applying such a file: the operations of /repo/ldaptor/delta.py with
their `asLDIF`, and the scripts /repo/ldaptor/_scripts/ldifdiff.py and /repo/ldaptor/_scripts/ldifpatch.py.

Of the scripts, the options and messages are left out, and a file is what `read` gives at once.
-/
namespace Verif.LdifPatch
open Verif.Tree Verif.Dn
open Verif.Server (Env)

/-- delta.py:142-149, 224-228, 279-284: `asLDIF` of an operation. -/
def opText (env : Env) : TreeOp → Py Bytes
  | .modify dn ms => Ldif.modifyAsLDIF dn ms
  | .add e => Ldif.addAsLDIF env e
  | .delete dn => .ok (Ldif.deleteAsLDIF dn)

/-- ldifdiff.py:17-18: the operations one after the other. -/
def opTexts (env : Env) : List TreeOp → Py Bytes
  | [] => .ok []
  | op :: ops => do
    let t ← opText env op
    let u ← opTexts env ops
    return t ++ u

/-- What `ldifdelta.fromLDIFFile` gives as an operation; it gives no plain entries. -/
def toOp : Ldif.Record → Option TreeOp
  | .entry _ => none
  | .modify dn ms => some (.modify dn ms)
  | .add e => some (.add e)
  | .delete dn => some (.delete dn)

/-- ldifdelta.py:158-171 `fromLDIFFile`: the operations of a file, or the exception. -/
def fromLDIFFile (U : Unicode) (chunks : List Bytes) : Except Ldif.Err (List TreeOp) :=
  match Ldif.parse U true chunks with
  | (rs, none) => .ok (rs.filterMap toOp)
  | (_, some x) => .error x

/-- ldifpatch.py:32-33: each operation is applied, and nobody looks at what becomes of it. -/
def applyAll (env : Env) (o : Orders) (h : Heap) (ops : List TreeOp) : Heap := ops.foldl (fun h op => (patchOp env o h op).1) h

/-! The scripts. -/

/-- A file opened for reading text, or for reading octets. -/
inductive File where
  | text (s : Str)
  | octets (b : Bytes)
  deriving DecidableEq, Repr

/-- The calls of `dataReceived` that a file makes: one with all it has, if it has anything.  Text cannot be appended to the
octets in the buffer of `LineReceiver`. -/
def File.chunks : File → Except Ldif.Err (List Bytes)
  | .text [] => .ok []
  | .text _ => .error (.py .typeError)
  | .octets [] => .ok []
  | .octets b => .ok [b]

/-- inmemory.py:189-200 `fromLDIFFile` of a file. -/
def load (env : Env) (f : File) : Except Ldif.Err LoadLdif.Completed := do
  let cs ← f.chunks
  LoadLdif.fromLDIFFile env cs

/-- ldifdelta.py:158-171 `fromLDIFFile` of a file. -/
def patches (U : Unicode) (f : File) : Except Ldif.Err (List TreeOp) := do
  let cs ← f.chunks
  fromLDIFFile U cs

/-- How a script ends, with what it wrote. -/
inductive Ended where
  /-- an exception leaves `main` -/
  | raised (x : Ldif.Err)
  /-- `sys.exit(exitStatus)` -/
  | exit (status : Nat) (written : Bytes)
  /-- the reactor runs and nothing stops it -/
  | hangs
  deriving DecidableEq, Repr

/-- `ldif.header()`: ldif.py:64-65 calls it `_header`, and there is no `header`. -/
def headerCall : Py Bytes := .error .attributeError

/-- ldifdiff.py:15-18 `output`: what was written to a file of octets, and the exception. -/
def diffOutput (env : Env) (ops : List TreeOp) : Bytes × Option PyErr :=
  match headerCall with
  | .error x => ([], some x)
  | .ok b =>
    match opTexts env ops with
    | .error x => (b, some x)
    | .ok t => (b ++ t, none)

/-- ldifdiff.py:37-41: `addErrback(error)` and `sys.exit(exitStatus)`. -/
def finish : Bytes × Option PyErr → Ended
  | (w, none) => .exit 0 w
  | (w, some _) => .exit 1 w

/-- ldifdiff.py:21-41 `main`; the files are opened in the callbacks, the second only when the first is loaded. -/
def diffMain (env : Env) (o : Orders) (f1 f2 : File) : Ended :=
  match load env f1 with
  | .error x => .raised x
  | .ok .pending => .hangs
  | .ok (.failed _) => .exit 1 []
  | .ok (.fired ha) =>
    match load env f2 with
    | .error _ => .exit 1 []
    | .ok .pending => .hangs
    | .ok (.failed _) => .exit 1 []
    | .ok (.fired hb) =>
      match diffTree env.U o ha hb with
      | .error _ => .exit 1 []
      | .ok ops => finish (diffOutput env ops)

/-- ldifpatch.py:16-22 `output`.  What comes after the header is not reached. -/
def patchOutput (_ : Heap) : Bytes × Option PyErr :=
  match headerCall with
  | .error x => ([], some x)
  | .ok b => (b, none)

/-- ldifpatch.py:25-43 `main`. -/
def patchMain (env : Env) (o : Orders) (data patch : File) : Ended :=
  match load env data with
  | .error x => .raised x
  | .ok .pending => .hangs
  | .ok (.failed _) => .exit 1 []
  | .ok (.fired h) =>
    match patches env.U patch with
    | .error _ => .exit 1 []
    | .ok ops => finish (patchOutput (applyAll env o h ops))

end Verif.LdifPatch
