import Verif.Model.Server
/-
Model of the difference of two trees, /repo/ldaptor/entryhelpers.py:18-126, and of how it is replayed,
/repo/ldaptor/delta.py:128-311.

The two trees are in two heaps.  Deferreds fire at once in the in-memory tree, and the list of operations is appended to in
the order of the calls.
-/
namespace Verif.Tree
open Verif.Dn

/-- delta.py:128-311: the operations, as far as they are applied. -/
inductive TreeOp where
  /-- `ModifyOp` -/
  | modify (dn : Dn.Dn) (ms : List Mod)
  /-- `AddOp` of an entry of the other tree, which is not changed meanwhile -/
  | add (e : Entry)
  /-- `DeleteOp` -/
  | delete (dn : Dn.Dn)
  deriving DecidableEq, Repr

/-- Orders in which things happen and that should not matter. -/
structure Orders where
  /-- the RDNs of children, sorted "for reproducability only" -/
  rdns : List Rdn → List Rdn
  /-- how a set of values is iterated -/
  values : List PyStr → List PyStr

/-- `x.dn.split()[0]` -/
def rdnOf (h : Heap) (c : Nat) : Py Rdn :=
  match dnOf h c with
  | [] => .error .indexError
  | r :: _ => .ok r

/-- A set of RDNs: equal hashes and equal objects, so equally spelled (distinguishedname.py:130-139, 203-209).  Different
objects with the same hash are not considered. -/
def rdnSet : List Rdn → List Rdn
  | [] => []
  | r :: l => if r ∈ l then rdnSet l else r :: rdnSet l

/-- entryhelpers.py:25-28 `rdnToChild`; here RDNs are compared without case. -/
def childWith (U : Unicode) (h : Heap) (cs : List Nat) (r : Rdn) : Py Nat :=
  match cs.filter (fun c => match rdnOf h c with | .ok r' => Rdn.eq U r' r | .error _ => false) with
  | [c] => .ok c
  | _ => .error .assertionError

/-- entryhelpers.py:130-135 `subtree` without a callback. -/
def subtree (h : Heap) (i : Nat) : List Nat := (walk h (fun _ => some true) (h.length + 1) i).1

def entriesAt (h : Heap) (l : List Nat) : List Entry := l.filterMap fun i => (h[i]?).map (·.entry)

/-- entryhelpers.py:71-87 `_diffTree_addedChildren` -/
def addedOps (h : Heap) (cs : List Nat) : List TreeOp := cs.flatMap fun c => (entriesAt h (subtree h c)).map .add

/-- entryhelpers.py:89-106 `_diffTree_deletedChildren` -/
def deletedOps (h : Heap) (cs : List Nat) : List TreeOp :=
  cs.flatMap fun c => (entriesAt h (subtree h c)).reverse.map fun e => .delete e.dn

/-- entryhelpers.py:108-126, 19-69 `diffTree`; the first number bounds the depth of the recursion. -/
def diffTreeLoop (U : Unicode) (o : Orders) (ha hb : Heap) : Nat → Nat → Nat → Py (List TreeOp)
  | 0, _, _ => .error .recursionDepth
  | fuel + 1, i, j =>
    match ha[i]?, hb[j]? with
    | some a, some b => do
      let root ← Delta.diff U a.entry b.entry -- asserts what lines 109-114 assert
      let mine := a.children.map (·.2)
      let his := b.children.map (·.2)
      let my ← Ldap.mapM' (rdnOf ha) mine
      let their ← Ldap.mapM' (rdnOf hb) his
      let common ← Ldap.mapM' (fun r => do return (← childWith U ha mine r, ← childWith U hb his r))
        (o.rdns ((rdnSet my).filter (· ∈ their)))
      let changed ← Ldap.mapM' (fun p : Nat × Nat => diffTreeLoop U o ha hb fuel p.1 p.2) common
      let added ← Ldap.mapM' (childWith U hb his) (o.rdns ((rdnSet their).filter (· ∉ my)))
      let deleted ← Ldap.mapM' (childWith U ha mine) (o.rdns ((rdnSet my).filter (· ∉ their)))
      return (match root with | none => [] | some ms => [TreeOp.modify a.entry.dn ms]) ++ changed.flatten ++
        addedOps hb added ++ deletedOps ha deleted
    | _, _ => .error .other

/-- `a.diffTree(b)` for the roots of two trees. -/
def diffTree (U : Unicode) (o : Orders) (ha hb : Heap) : Py (List TreeOp) := diffTreeLoop U o ha hb (ha.length + 1) 0 0

/-- delta.py:183-192, 233-240, 286-293 `patch`: the tree afterwards, and the exception if one was raised. -/
def patchOp (env : Server.Env) (o : Orders) (h : Heap) : TreeOp → Heap × Option PyErr
  | .modify dn ms =>
    match lookup env.U h 0 dn with
    | .error x => (h, some x)
    | .ok i =>
      match h[i]? with
      | none => (h, some .other)
      | some n =>
        match Delta.patchAll env.U (ms.map fun m => { m with values := o.values m.values }) n.entry with
        | (e, x) => (h.set i { n with entry := e }, x)
  | .add e =>
    match lookup env.U h 0 (Dn.up e.dn) with
    | .error x => (h, some x)
    | .ok p =>
      match e.dn with
      | [] => (h, some .indexError)
      | rdn :: _ =>
        match addChild env.U h p rdn [] with
        | .error x => (h, some x)
        | .ok _ =>
          match Server.items env e with
          | .error x => (h, some x)
          | .ok l =>
            match addChild env.U h p rdn l with
            | .error x => (h, some x)
            | .ok r => (r.1, none)
  | .delete dn =>
    match lookup env.U h 0 dn with
    | .error x => (h, some x)
    | .ok i =>
      match delete h i with
      | .error x => (h, some x)
      | .ok r => (r.1, none)

/-- The operations applied in order, up to the first that fails. -/
def replay (env : Server.Env) (o : Orders) : Heap → List TreeOp → Heap × Option PyErr
  | h, [] => (h, none)
  | h, op :: ops =>
    match patchOp env o h op with
    | (h', none) => replay env o h' ops
    | (h', some x) => (h', some x)

end Verif.Tree
