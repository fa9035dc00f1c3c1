import Verif.Model.Tree
import Verif.Spec.Dn
/-
Specification of a directory as a finite map from names to attributes.
-/
namespace Verif.Spec
open Verif.Dn

/-- A DN with case removed. -/
abbrev Name := List (List (Str × Str))

/-- The entries: the name, and the attributes as they were given. -/
abbrev Directory := List (Name × List (PyStr × List PyStr))

namespace Directory

/-- There is an entry of this name. -/
def has (D : Directory) (x : Name) : Bool := D.any fun p => p.1 == x

/-- There is an entry directly below this name. -/
def hasChild (D : Directory) (x : Name) : Bool := D.any fun p => p.1 != [] && p.1.tail == x

/-- The attributes given for a name. -/
def find (D : Directory) (x : Name) : Option (List (PyStr × List PyStr)) := (D.find? fun p => p.1 == x).map (·.2)

end Directory

/-- A request, with entries referred to by their names. -/
inductive Request where
  | add (parent : Dn) (rdn : Rdn) (attributes : List (PyStr × List PyStr))
  | delete (dn : Dn)
  | deleteChild (parent : Dn) (rdn : Rdn)

/-- What a request should do: the directory afterwards and the error, if it is refused. -/
def Directory.step (U : Unicode) (root : Name) (D : Directory) : Request → Directory × Option PyErr
  | .add parent rdn as =>
    if !D.has (foldDn U parent) then (D, some .noSuchObject)
    else if D.has (foldRdn U rdn :: foldDn U parent) then (D, some .alreadyExists)
    else (D ++ [(foldRdn U rdn :: foldDn U parent, as)], none)
  | .delete dn =>
    if !D.has (foldDn U dn) then (D, some .noSuchObject)
    else if foldDn U dn = root then (D, some .cannotRemoveRoot)
    else if D.hasChild (foldDn U dn) then (D, some .notAllowedOnNonLeaf)
    else (D.filter (fun p => p.1 != foldDn U dn), none)
  | .deleteChild parent rdn =>
    if !D.has (foldDn U parent) then (D, some .noSuchObject)
    else if !D.has (foldRdn U rdn :: foldDn U parent) then (D, some .noSuchObject)
    else (D.filter (fun p => !((foldRdn U rdn :: foldDn U parent).isSuffixOf p.1)), none)

/-- The directory and the answers after a number of requests. -/
def Directory.run (U : Unicode) (root : Name) : Directory → List Request → Directory × List (Option PyErr)
  | D, [] => (D, [])
  | D, r :: rs =>
    match D.step U root r with
    | (D', x) => match D'.run U root rs with | (D'', xs) => (D'', x :: xs)

end Verif.Spec
