import Verif.Model.Delta
import Verif.Model.Match
/-
Model of the in-memory directory, /repo/ldaptor/inmemory.py, and of the helpers that work on any tree of entries,
/repo/ldaptor/entryhelpers.py:18-146, 247-306.

Python objects are nodes of a heap: a node is referred to by its position, new nodes are appended, and no node ever goes
away (the program may hold a reference to an entry that was deleted).  Deferreds fire at once in this code, so a call is
a function of the heap.
-/
namespace Verif.Tree
open Verif.Dn

/-- inmemory.py:14-24 `ReadOnlyInMemoryLDAPEntry`: the entry, `_parent` and `_children`, a dict in insertion order. -/
structure Node where
  entry : Entry
  parent : Option Nat
  children : List (Str × Nat)
  deriving DecidableEq, Repr

abbrev Heap := List Node

/-- entry.py:55-58: collect the values given for a name; names are compared in lower case. -/
def collect (U : Unicode) (d : Attrs) (p : PyStr × List PyStr) : Attrs :=
  match d.find U p.1 with
  | some _ => d.update U p.1 (fun vs => vs ++ p.2)
  | none => d ++ [p]

/-- entry.py:52-61: the attributes of a new entry. -/
def buildAttrs (U : Unicode) (l : List (PyStr × List PyStr)) : Attrs :=
  (l.foldl (collect U) []).map fun p => (p.1, mkSet p.2)

/-- inmemory.py:57-69 `addChild`; gives the new heap and the new node. -/
def addChild (U : Unicode) (h : Heap) (p : Nat) (rdn : Rdn) (attributes : List (PyStr × List PyStr)) : Py (Heap × Nat) :=
  match h[p]? with
  | none => .error .other
  | some n =>
    if rdn.text ∈ n.children.map (·.1) then .error .alreadyExists
    else .ok ((h.set p { n with children := n.children ++ [(rdn.text, h.length)] }) ++
      [⟨⟨rdn :: n.entry.dn, buildAttrs U attributes⟩, some p, []⟩], h.length)

/-- inmemory.py:81-88 `_deleteChild`; gives the new heap and the node taken out. -/
def deleteChild (h : Heap) (p : Nat) (rdn : Rdn) : Py (Heap × Nat) :=
  match h[p]? with
  | none => .error .other
  | some n =>
    match n.children.lookup rdn.text with
    | some c => .ok (h.set p { n with children := n.children.filter (fun x => x.1 ≠ rdn.text) }, c)
    | none => .error .noSuchObject

/-- inmemory.py:71-76 `_delete`. -/
def delete (h : Heap) (i : Nat) : Py (Heap × Nat) :=
  match h[i]? with
  | none => .error .other
  | some n =>
    match n.parent with
    | none => .error .cannotRemoveRoot
    | some p =>
      if n.children ≠ [] then .error .notAllowedOnNonLeaf
      else match n.entry.dn with
        | [] => .error .indexError
        | rdn :: _ => deleteChild h p rdn

/-- The DN of a node. -/
def dnOf (h : Heap) (i : Nat) : Dn.Dn := ((h[i]?).map (fun n => n.entry.dn)).getD []

/-- inmemory.py:37-47 `_lookup`; the first argument bounds the depth of the recursion. -/
def lookupLoop (U : Unicode) (h : Heap) : Nat → Nat → Dn.Dn → Py Nat
  | 0, _, _ => .error .recursionDepth
  | fuel + 1, i, dn =>
    match h[i]? with
    | none => .error .other
    | some n =>
      if !(Dn.contains U n.entry.dn dn) then .error .noSuchObject
      else if Dn.eq U dn n.entry.dn then .ok i
      else match n.children.find? (fun c => Dn.contains U (dnOf h c.2) dn) with
        | some c => lookupLoop U h fuel c.2 dn
        | none => .error .noSuchObject

/-- inmemory.py:49-52 `lookup`.  A chain of nodes without repetition is not longer than the heap. -/
def lookup (U : Unicode) (h : Heap) (i : Nat) (dn : Dn.Dn) : Py Nat := lookupLoop U h (h.length + 1) i dn

/-! Moving. -/

/-- `d[k] = v` on a dict. -/
def setKey (k : Str) (v : Nat) : List (Str × Nat) → List (Str × Nat)
  | [] => [(k, v)]
  | (k', v') :: d => if k' = k then (k, v) :: d else (k', v') :: setKey k v d

/-- inmemory.py:98-100: climb to the root. -/
def climb (h : Heap) : Nat → Nat → Py Nat
  | 0, _ => .error .recursionDepth
  | fuel + 1, i =>
    match h[i]? with
    | none => .error .other
    | some n =>
      match n.parent with
      | none => .ok i
      | some p => climb h fuel p

/-- inmemory.py:112-117: a loop over the attributes of an RDN that changes one value set in each round. -/
def rdnLoop (U : Unicode) (f : PyStr → List PyStr → Py (List PyStr)) : Rdn → Entry → Entry × Option PyErr
  | [], e => (e, none)
  | a :: r, e =>
    match e.changeItem U (.text a.attributeType) (f (.text a.value)) with
    | (e', none) => rdnLoop U f r e'
    | (e', some x) => (e', some x)

/-- inmemory.py:107-119 `_move2`: the heap afterwards, and the exception if one was raised. -/
def move2 (U : Unicode) (h : Heap) (i : Nat) (newParent : Option Nat) (newDN : Dn.Dn) : Heap × Option PyErr :=
  match h[i]? with
  | none => (h, some .other)
  | some self =>
    let relink : Heap × Option PyErr :=
      match newParent with
      | none => (h, none)
      | some np =>
        match newDN, h[np]? with
        | r :: _, some q =>
          let h1 := h.set np { q with children := setKey r.text i q.children }
          match self.parent with
          | none => (h1, some .attributeError)
          | some p =>
            match self.entry.dn, h1[p]? with
            | old :: _, some pn =>
              if old.text ∈ pn.children.map (·.1) then
                (h1.set p { pn with children := pn.children.filter (fun x => x.1 ≠ old.text) }, none)
              else (h1, some .keyError)
            | _, _ => (h1, some .indexError)
        | _, _ => (h, some .indexError)
    match relink with
    | (h1, some x) => (h1, some x)
    | (h1, none) =>
      match h1[i]? with
      | none => (h1, some .other)
      | some self =>
        match self.entry.dn, newDN with
        | [], _ => (h1, some .indexError)
        | old :: _, [] =>
          match rdnLoop U (fun v s => AttributeSet.remove s v) old self.entry with
          | (e, x) => (h1.set i { self with entry := e }, some (x.getD .indexError))
        | old :: _, new :: _ =>
          match rdnLoop U (fun v s => AttributeSet.remove s v) old self.entry with
          | (e, some x) => (h1.set i { self with entry := e }, some x)
          | (e, none) =>
            match rdnLoop U (fun v s => AttributeSet.add s v) new e with
            | (e, some x) => (h1.set i { self with entry := e }, some x)
            | (e, none) => (h1.set i { self with entry := { e with dn := newDN } }, none)

/-- inmemory.py:93-105 `_move`. -/
def move (U : Unicode) (h : Heap) (i : Nat) (newDN : Dn.Dn) : Heap × Option PyErr :=
  if !(Dn.eq U (Dn.up newDN) (Dn.up (dnOf h i))) then
    match climb h (h.length + 1) i with
    | .error x => (h, some x)
    | .ok root =>
      match lookup U h root (Dn.up newDN) with
      | .error x => (h, some x)
      | .ok np => move2 U h i (some np) newDN
  else move2 U h i none newDN

/-! Walking. -/

/-- entryhelpers.py:140-143: the loop over the children, given what happens for one child: the nodes accepted, and whether
the call raised.  An exception ends the loop and is then lost in the Deferred of that loop. -/
def walkLoop (visit : Nat → List Nat × Bool) : List Nat → List Nat
  | [] => []
  | c :: cs =>
    match visit c with
    | (r, true) => r
    | (r, false) => r ++ walkLoop visit cs

/-- entryhelpers.py:129-146 `subtree(callback)`: the nodes the callback accepted, and whether it raised in this very call.
`accept` is the callback: `none` if it raises.  The children are taken from the end of the list. -/
def walk (h : Heap) (accept : Nat → Option Bool) : Nat → Nat → List Nat × Bool
  | 0, _ => ([], true)
  | fuel + 1, i =>
    match accept i with
    | none => ([], true)
    | some b =>
      ((if b then [i] else []) ++
        walkLoop (walk h accept fuel) (((h[i]?).map fun n => n.children.map (·.2)).getD []).reverse, false)

/-- inmemory.py:29-35 `children(callback)` with a callback as above. -/
def eachChild (accept : Nat → Option Bool) : List Nat → Option (List Nat)
  | [] => some []
  | c :: cs =>
    match accept c with
    | none => none
    | some b =>
      match eachChild accept cs with
      | none => none
      | some r => some (if b then c :: r else r)

/-- The search scopes. -/
inductive Scope where
  | base
  | one
  | sub
  deriving DecidableEq, Repr

/-- entryhelpers.py:297-299 `_tryMatch` -/
def tryMatch (U : Unicode) (h : Heap) (f : Match.Filter) (i : Nat) : Option Bool :=
  match h[i]? with
  | none => none
  | some n =>
    match Match.eval U n.entry f with
    | .ok b => some b
    | .error _ => none

/-- entryhelpers.py:247-306 `search`, given a filter object: the nodes reported, or `none` if the call raises. -/
def search (U : Unicode) (h : Heap) (i : Nat) (scope : Scope) (f : Match.Filter) : Option (List Nat) :=
  match scope with
  | .base =>
    match tryMatch U h f i with
    | none => none
    | some b => some (if b then [i] else [])
  | .one => eachChild (tryMatch U h f) (((h[i]?).map fun n => n.children.map (·.2)).getD [])
  | .sub =>
    match walk h (tryMatch U h f) (h.length + 1) i with
    | (_, true) => none
    | (r, false) => some r

end Verif.Tree
