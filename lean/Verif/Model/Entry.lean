import Verif.Model.PyStr
import Verif.Model.Dn
/-
Model of LDAP entries, /repo/ldaptor/entry.py, and of twisted.python.util.InsensitiveDict as used there.

A value set is a list without repetition; the iteration order of a Python set is unspecified, so theorems hold for every
order of the list.  The attribute set object stored under a key carries the same key (entry.py:58-64, 258-260), so the
key is kept once.
-/
namespace Verif

/-- An `InsensitiveDict` from attribute names to value sets, in insertion order; each name as last written. -/
abbrev Attrs := List (PyStr × List PyStr)

namespace Attrs

/-- `InsensitiveDict.__getitem__`: names are compared in lower case. -/
def find (U : Unicode) (k : PyStr) : Attrs → Option (List PyStr)
  | [] => none
  | (k', vs) :: d => if k'.lower U = k.lower U then some vs else find U k d

/-- `InsensitiveDict.__setitem__`: an existing item keeps its position but takes the new spelling. -/
def set (U : Unicode) (k : PyStr) (vs : List PyStr) : Attrs → Attrs
  | [] => [(k, vs)]
  | (k', vs') :: d => if k'.lower U = k.lower U then (k, vs) :: d else (k', vs') :: set U k vs d

/-- `InsensitiveDict.__delitem__` for a name that is present. -/
def erase (U : Unicode) (k : PyStr) : Attrs → Attrs
  | [] => []
  | (k', vs') :: d => if k'.lower U = k.lower U then d else (k', vs') :: erase U k d

end Attrs

/-- entry.py:34-61 `BaseLDAPEntry`. -/
structure Entry where
  dn : Dn.Dn
  attrs : Attrs
  deriving DecidableEq, Repr

/-- `set(values)`: keeps one of identical elements. -/
def mkSet : List PyStr → List PyStr
  | [] => []
  | v :: vs => if v ∈ mkSet vs then mkSet vs else v :: mkSet vs

namespace Entry

/-- The loop of entry.py:66-70, 72-76, 78-82: the value set under the first of the given keys that is present. -/
def firstOf (U : Unicode) (d : Attrs) : List PyStr → Option (List PyStr)
  | [] => none
  | k :: ks =>
    match d.find U k with
    | some vs => some vs
    | none => firstOf U d ks

/-- entry.py:72-76 `get` -/
def get (U : Unicode) (e : Entry) (k : PyStr) : Py (Option (List PyStr)) := do
  let ks ← k.getStrings
  return firstOf U e.attrs ks

/-- entry.py:78-85 `has_key`, `__contains__` -/
def hasKey (U : Unicode) (e : Entry) (k : PyStr) : Py Bool := do
  let r ← e.get U k
  return r.isSome

/-- entry.py:66-70 `__getitem__` -/
def getItem (U : Unicode) (e : Entry) (k : PyStr) : Py (List PyStr) := do
  let r ← e.get U k
  match r with
  | some vs => .ok vs
  | none => .error .keyError

/-- entry.py:258-260 `__setitem__` -/
def setItem (U : Unicode) (e : Entry) (k : PyStr) (vs : List PyStr) : Entry :=
  { e with attrs := e.attrs.set U k (mkSet vs) }

/-- entry.py:262-263 `__delitem__`: the key itself, not its other form. -/
def delItem (U : Unicode) (e : Entry) (k : PyStr) : Py Entry :=
  match e.attrs.find U k with
  | some _ => .ok { e with attrs := e.attrs.erase U k }
  | none => .error .keyError

end Entry
end Verif
