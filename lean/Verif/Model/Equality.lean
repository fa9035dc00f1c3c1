import Verif.Model.Ldap
/-
Model of `==`, `!=` and `hash` of the objects of /repo/ldaptor/protocols/pureber.py and /repo/ldaptor/protocols/pureldap.py:
pureber.py:117-132 and pureldap.py:506-515.

Simplification: the test for being the same object (pureldap.py:508, and the one that comparing lists begins with) is left out, as
the model has no identities.  `Verif.C102.reflexive` shows that an object that can be encoded equals itself without it.
-/
namespace Verif.Equality
open Verif.Ldap

/-- The elements of an instance of `LDAPFilterSet`, that is of `LDAPFilter_and` or `LDAPFilter_or` (pureldap.py:497, 518, 525). -/
def filterSet : Obj → Option (List Obj)
  | .seq .fAnd _ data => some data
  | .seq .fOr _ data => some data
  | _ => none

/-- Whether the class is one of the base classes of `LDAPFilterSet`: then Python asks the other operand first. -/
def isBase : Obj → Bool
  | .seq .sequence _ _ => true
  | .seq .set _ _ => true
  | _ => false

/-- Iteration, as in `sorted(rhs)`.  A `BERSequence` is a `UserList` (pureber.py:282); most subclasses leave it empty, for
instance pureldap.py:464, 625, 811.  Other objects have a length but no elements: `TypeError`. -/
def iter : Obj → Py (List Obj)
  | .seq _ _ data => .ok data
  | .int .. | .oct .. | .null .. | .bool .. | .not .. => .error .typeError
  | _ => .ok []

/-- `<` of byte strings -/
def lt : Bytes → Bytes → Bool
  | _, [] => false
  | [], _ :: _ => true
  | a :: as, b :: bs => a < b || (a == b && lt as bs)

/-- Each element with its sort key, `lambda x: x.toWire()`. -/
def keyed : List Obj → Py (List (Bytes × Obj))
  | [] => .ok []
  | x :: xs => do
    let k ← toWire x
    let r ← keyed xs
    return (k, x) :: r

/-- A place for an element that came before the others. -/
def insert (x : Bytes × Obj) : List (Bytes × Obj) → List (Bytes × Obj)
  | [] => [x]
  | y :: ys => if lt y.1 x.1 then y :: insert x ys else x :: y :: ys

/-- A stable sort. -/
def sort : List (Bytes × Obj) → List (Bytes × Obj)
  | [] => []
  | x :: xs => insert x (sort xs)

/-- pureldap.py:513: `sorted(…, key=lambda x: x.toWire())` -/
def sorted (l : List Obj) : Py (List Obj) := do
  let k ← keyed l
  return (sort k).map Prod.snd

/-- `==` of lists whose elements are compared by `eq`. -/
def listEq (eq : Obj → Obj → Py Bool) : List Obj → List Obj → Py Bool
  | [], [] => .ok true
  | x :: xs, y :: ys => do
    let b ← eq x y
    if b then listEq eq xs ys else return false
  | _, _ => .ok false

/-- `==` of lists: different lengths make them different at once. -/
def lists (eq : Obj → Obj → Py Bool) (l r : List Obj) : Py Bool :=
  if l.length = r.length then listEq eq l r else .ok false

/-- pureldap.py:506-515 `LDAPFilterSet.__eq__`: `self` has the elements `data`.  `len` is the length of the encoding
(pureber.py:117-118). -/
def setEq (eq : Obj → Obj → Py Bool) (self : Obj) (data : List Obj) (rhs : Obj) : Py Bool := do
  let a ← toWire self
  let b ← toWire rhs
  if a.length ≠ b.length then return false
  let l ← sorted data
  let items ← iter rhs
  let r ← sorted items
  lists eq l r

/-- pureber.py:120-123 `BERBase.__eq__` -/
def wireEq (x y : Obj) : Py Bool := do
  let a ← toWire x
  let b ← toWire y
  return a == b

/-- `x == y` with at most `n` calls of `__eq__` within each other. -/
def eqN : Nat → Obj → Obj → Py Bool
  | 0, _, _ => .ok false
  | n + 1, x, y =>
    match filterSet x with
    | some data => setEq (eqN n) x data y
    | none =>
      match filterSet y with
      | some data => if isBase x then setEq (eqN n) y data x else wireEq x y
      | none => wireEq x y

mutual
/-- How deep sequences are nested. -/
def depth : Obj → Nat
  | .seq _ _ data => depths data + 1
  | _ => 1
def depths : List Obj → Nat
  | [] => 0
  | x :: xs => depth x + depths xs
end

/-- `x == y`; the bound is not reached. -/
def eq (x y : Obj) : Py Bool := eqN (depth x + depth y) x y

/-- pureber.py:125-129 `BERBase.__ne__`, which `LDAPFilterSet` does not override. -/
def ne (x y : Obj) : Py Bool := do
  let a ← toWire x
  let b ← toWire y
  return a != b

/-- pureber.py:131-132 `BERBase.__hash__`, where `h` is the hash of byte strings.  A class that defines `__eq__` and not
`__hash__` has no hash (pureldap.py:506): `TypeError`. -/
def hash (h : Bytes → Int) (x : Obj) : Py Int :=
  match filterSet x with
  | some _ => .error .typeError
  | none => do
    let a ← toWire x
    return h a

end Verif.Equality
