import Verif.Model.Tree
/-
Specification of a directory held as linked nodes.
-/
namespace Verif.Spec
open Verif.Dn Verif.Tree

/-- Node `i` lists node `c` as a child, under the key `k`. -/
def ChildAs (h : Heap) (i : Nat) (k : Str) (c : Nat) : Prop := ∃ n, h[i]? = some n ∧ (k, c) ∈ n.children

/-- A way down from one node to another: the nodes passed, without the first. -/
inductive Path (h : Heap) : Nat → List Nat → Nat → Prop where
  | here (i : Nat) : Path h i [] i
  | down {i c j : Nat} {k : Str} {l : List Nat} : ChildAs h i k c → Path h c l j → Path h i (c :: l) j

/-- Node `j` belongs to the subtree at `i`. -/
def Below (h : Heap) (i j : Nat) : Prop := ∃ l, Path h i l j

/-- The links of a directory agree. -/
structure Consistent (h : Heap) (root : Nat) : Prop where
  /-- the root is there, and has no parent -/
  rooted : ∃ n, h[root]? = some n ∧ n.parent = none
  /-- a child exists, names the node as its parent, and its DN is its RDN followed by that of the parent -/
  links : ∀ (i : Nat) (n : Node) k c, h[i]? = some n → (k, c) ∈ n.children →
    ∃ (m : Node) (rdn : Rdn), h[c]? = some m ∧ m.parent = some i ∧ m.entry.dn = rdn :: n.entry.dn ∧ k = Rdn.text rdn
  /-- an entry of the directory other than the root is listed by its parent -/
  listed : ∀ j, Below h root j → j ≠ root → ∃ m p k, h[j]? = some m ∧ m.parent = some p ∧ ChildAs h p k j
  /-- siblings have different RDN texts -/
  siblings : ∀ (i : Nat) (n : Node), h[i]? = some n → (n.children.map (·.1)).Nodup
  /-- there is only one way to each entry -/
  once : ∀ j l l', Path h root l j → Path h root l' j → l = l'

/-- A call that may change the directory; a node is referred to as the program does, by a reference. -/
inductive Call where
  | add (parent : Nat) (rdn : Rdn) (attributes : List (PyStr × List PyStr))
  | delete (entry : Nat)
  | deleteChild (parent : Nat) (rdn : Rdn)

/-- The directory after a call; a call that raises leaves it as it was. -/
def callStep (U : Unicode) (h : Heap) : Call → Heap
  | .add p rdn as => match addChild U h p rdn as with | .ok r => r.1 | .error _ => h
  | .delete i => match delete h i with | .ok r => r.1 | .error _ => h
  | .deleteChild p rdn => match deleteChild h p rdn with | .ok r => r.1 | .error _ => h

/-- The directory after a number of calls. -/
def callRun (U : Unicode) (h : Heap) (cs : List Call) : Heap := cs.foldl (callStep U) h

end Verif.Spec
