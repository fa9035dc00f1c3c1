import Verif.Model.AttributeSet
/-
Model of entry differences and modifications: /repo/ldaptor/entry.py:141-156, 179-221 and /repo/ldaptor/delta.py:13-192.
-/
namespace Verif

/-- delta.py:52, 72, 93: the three kinds of modification. -/
inductive ModKind where
  | add
  | delete
  | replace
  deriving DecidableEq, Repr

/-- delta.py:13-49 `Modification`: an attribute value set with the name of the attribute. -/
structure Mod where
  kind : ModKind
  key : PyStr
  values : List PyStr
  deriving DecidableEq, Repr

namespace Attrs

/-- Change the value set stored under a name, in place. -/
def update (U : Unicode) (k : PyStr) (f : List PyStr → List PyStr) : Attrs → Attrs
  | [] => []
  | (k', vs) :: d => if k'.lower U = k.lower U then (k', f vs) :: d else (k', vs) :: update U k f d

end Attrs

namespace Entry

/-- The form of the name under which `self[key]` finds the attribute. -/
def formOf (U : Unicode) (d : Attrs) : List PyStr → Option PyStr
  | [] => none
  | k :: ks =>
    match d.find U k with
    | some _ => some k
    | none => formOf U d ks

/-- `f(entry[key])` for an `f` that changes the set in place and may raise; the second component is the exception. -/
def changeItem (U : Unicode) (e : Entry) (key : PyStr) (f : List PyStr → Py (List PyStr)) : Entry × Option PyErr :=
  match key.getStrings with
  | .error x => (e, some x)
  | .ok ks =>
    match formOf U e.attrs ks with
    | none => (e, some .keyError)
    | some k =>
      match f ((e.attrs.find U k).getD []) with
      | .ok vs => ({ e with attrs := e.attrs.update U k (fun _ => vs) }, none)
      | .error x => (e, some x)

end Entry

namespace Delta

/-- delta.py:79-80: `for v in self: entry[self.key].remove(v)`. -/
def removeLoop (U : Unicode) (key : PyStr) : List PyStr → Entry → Entry × Option PyErr
  | [], e => (e, none)
  | v :: vs, e =>
    match e.changeItem U key (fun s => AttributeSet.remove s v) with
    | (e', none) => removeLoop U key vs e'
    | (e', some x) => (e', some x)

/-- delta.py:55-59, 75-80, 96-103 `patch`: the entry afterwards, and the exception if one was raised.  Changes made
before the exception stay. -/
def patch (U : Unicode) (m : Mod) (e : Entry) : Entry × Option PyErr :=
  match m.kind with
  | .add =>
    match e.hasKey U m.key with
    | .error x => (e, some x)
    | .ok true => e.changeItem U m.key (fun s => .ok (AttributeSet.update s m.values))
    | .ok false => (e.setItem U m.key m.values, none)
  | .delete =>
    if m.values = [] then
      match e.delItem U m.key with
      | .ok e' => (e', none)
      | .error x => (e, some x)
    else removeLoop U m.key m.values e
  | .replace =>
    if m.values = [] then
      match e.delItem U m.key with
      | .ok e' => (e', none)
      | .error .keyError => (e, none)
      | .error x => (e, some x)
    else (e.setItem U m.key m.values, none)

/-- delta.py:186-189: the loop of `ModifyOp.patch` over the modifications. -/
def patchAll (U : Unicode) : List Mod → Entry → Entry × Option PyErr
  | [], e => (e, none)
  | m :: ms, e =>
    match patch U m e with
    | (e', none) => patchAll U ms e'
    | (e', some x) => (e', some x)

/-- Insert before the first element that is larger (`sort(key=to_bytes)` is stable). -/
def insertSorted (x : PyStr) : List PyStr → List PyStr
  | [] => [x]
  | y :: l =>
    if PyStr.lexLe (x.toBytes.map UInt8.toNat) (y.toBytes.map UInt8.toNat) then x :: y :: l else y :: insertSorted x l

/-- `l.sort(key=to_bytes)` -/
def sortBytes : List PyStr → List PyStr
  | [] => []
  | x :: l => insertSorted x (sortBytes l)

/-- entry.py:87-88 `__iter__`: the names as spelled. -/
def names (e : Entry) : List PyStr := e.attrs.map (·.1)

/-- Equality of Python sets. -/
def sameSet (s t : List PyStr) : Bool := s.all (· ∈ t) && t.all (· ∈ s)

/-- entry.py:151-156: the loop over the names; `LDAPAttributeSet.__eq__` also compares the names stored with the sets
(attributeset.py:36-39). -/
def equalValues (U : Unicode) (a b : Entry) : List PyStr → Py Bool
  | [] => .ok true
  | k :: ks => do
    let x ← a.getItem U k
    let y ← b.getItem U k
    if sameSet x y then equalValues U a b ks else return false

/-- entry.py:141-156 `__eq__` -/
def entryEq (U : Unicode) (a b : Entry) : Py Bool :=
  if !(Dn.Dn.eq U a.dn b.dn) then .ok false
  else if sortBytes (names a) ≠ sortBytes (names b) then .ok false
  else equalValues U a b (sortBytes (names a))

/-- entry.py:199-200: `for added in addedKeys: r.append(delta.Add(added, other[added]))` -/
def addedMods (U : Unicode) (b : Entry) : List PyStr → Py (List Mod)
  | [] => .ok []
  | k :: ks => do
    let vs ← b.getItem U k
    let r ← addedMods U b ks
    return ⟨.add, k, vs⟩ :: r

/-- entry.py:204-205 -/
def deletedMods (U : Unicode) (a : Entry) : List PyStr → Py (List Mod)
  | [] => .ok []
  | k :: ks => do
    let vs ← a.getItem U k
    let r ← deletedMods U a ks
    return ⟨.delete, k, vs⟩ :: r

/-- entry.py:209-219 -/
def sharedMods (U : Unicode) (a b : Entry) : List PyStr → Py (List Mod)
  | [] => .ok []
  | k :: ks => do
    let mine ← a.getItem U k
    let his ← b.getItem U k
    let added := AttributeSet.minus his mine
    let deleted := AttributeSet.minus mine his
    let r ← sharedMods U a b ks
    return (if added = [] then [] else [⟨.add, k, sortBytes added⟩]) ++
      (if deleted = [] then [] else [⟨.delete, k, sortBytes deleted⟩]) ++ r

/-- entry.py:179-221 `diff`: `none` for equal entries, otherwise the modifications. -/
def diff (U : Unicode) (a b : Entry) : Py (Option (List Mod)) :=
  if !(Dn.Dn.eq U a.dn b.dn) then .error .assertionError
  else do
    let same ← entryEq U a b
    if same then return none
    else do
      let r1 ← addedMods U b (sortBytes (AttributeSet.minus (names b) (names a)))
      let r2 ← deletedMods U a (sortBytes (AttributeSet.minus (names a) (names b)))
      let r3 ← sharedMods U a b (sortBytes ((names a).filter (· ∈ names b)))
      return some (r1 ++ r2 ++ r3)

end Delta
end Verif
