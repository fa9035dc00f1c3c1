import Verif.Model.DiffTree
import Verif.Model.Ldif
/-
Model of loading LDIF into the in-memory tree, /repo/ldaptor/inmemory.py:128-200.

The Deferreds of the in-memory tree fire at once, so the callbacks that `gotEntry` puts on `_deferred` run at once too: the
first entry fires it, and every later one is added before the call of `gotEntry` returns.
-/
namespace Verif.LoadLdif
open Verif.Tree Verif.Dn
open Verif.Server (Env)

/-- inmemory.py:173-177 `lookupFailed` and `addFailed`, which subclasses override: the failure they pass on, or `none` if they
return `None`. -/
structure Hooks where
  lookupFailed : PyErr → Entry → Option PyErr
  addFailed : PyErr → Entry → Option PyErr

/-- inmemory.py:173-177: the failure is passed on. -/
def aborting : Hooks := ⟨fun x _ => some x, fun x _ => some x⟩

/-- inmemory.py:152-154 `_add` with 57-69 `addChild`: the name is looked for before the attributes are copied. -/
def addTo (env : Env) (h : Heap) (p : Nat) (e : Entry) : Heap × Option PyErr :=
  match e.dn with
  | [] => (h, some .indexError)
  | rdn :: _ =>
    match addChild env.U h p rdn [] with
    | .error x => (h, some x)
    | .ok _ =>
      match Server.items env e with
      | .error x => (h, some x)
      | .ok l =>
        match addChild env.U h p rdn l with
        | .error x => (h, some x)
        | .ok r => (r.1, none)

/-- inmemory.py:156-157: what comes after `d.addErrback(self.addFailed, entry)`. -/
def recover (hooks : Hooks) (e : Entry) : Heap × Option PyErr → Heap × Option PyErr
  | (h, none) => (h, none)
  | (h, some x) => (h, hooks.addFailed x e)

/-- inmemory.py:148-163 `_addEntry`: the tree, and the failure that is passed on. -/
def addEntry (env : Env) (hooks : Hooks) (h : Heap) (e : Entry) : Heap × Option PyErr :=
  match lookup env.U h 0 (Dn.up e.dn) with
  | .ok p => recover hooks e (addTo env h p e)
  | .error x =>
    match hooks.lookupFailed x e with
    | none => (h, none)
    | some x => recover hooks e (h, some x)

/-- inmemory.py:142-146: `db` and how `_deferred` stands: not fired, or fired with the tree or a failure. -/
abbrev State := Option (Heap × Option PyErr)

/-- inmemory.py:165-171 `gotEntry`.  Callbacks are skipped once there is a failure. -/
def gotEntry (env : Env) (hooks : Hooks) (s : State) (e : Entry) : Py State :=
  match s with
  | none => do
    let l ← Server.items env e
    return some ([⟨⟨e.dn, buildAttrs env.U l⟩, none, []⟩], none)
  | some (h, some x) => .ok (some (h, some x))
  | some (h, none) => .ok (some (addEntry env hooks h e))

/-- The calls of `gotEntry`, in order.  `LDIF` passes entries only. -/
def gotAll (env : Env) (hooks : Hooks) : State → List Ldif.Record → Py State
  | s, [] => .ok s
  | s, .entry e :: rs => do
    let s ← gotEntry env hooks s e
    gotAll env hooks s rs
  | _, _ :: _ => .error .attributeError

/-- How the Deferred `completed` stands. -/
inductive Completed where
  | pending
  | fired (h : Heap)
  | failed (x : PyErr)
  deriving DecidableEq, Repr

/-- inmemory.py:179-186 `connectionLost` after the superclass' check: `done` says that the reason is `ConnectionDone`. -/
def connectionLost (done : Bool) : State → Completed
  | none => .pending
  | some (h, none) => if done then .fired h else .pending
  | some (_, some x) => if done then .failed x else .pending

/-- The calls of `dataReceived`, then `connectionLost`; ldifprotocol.py:149-151 comes first in it.  An exception of the parser
comes out after the entries before it were passed on. -/
def receive (env : Env) (hooks : Hooks) (done : Bool) (chunks : List Bytes) : Except Ldif.Err Completed :=
  match gotAll env hooks none (Ldif.parse env.U false chunks).1 with
  | .error x => .error (.py x)
  | .ok s =>
    match (Ldif.parse env.U false chunks).2 with
    | some x => .error x
    | none => .ok (connectionLost done s)

/-- inmemory.py:189-200 `fromLDIFFile`: the Deferred it gives back, or the exception it raises. -/
def fromLDIFFile (env : Env) (chunks : List Bytes) : Except Ldif.Err Completed := receive env aborting true chunks

end Verif.LoadLdif
