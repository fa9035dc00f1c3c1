import Verif.Model.LdifTree
/-
Vocabulary for the tree of LDIF files.
-/
namespace Verif.Spec
open Verif.LdifTree

/-- The DN has no slash, neither in an attribute type nor in a value. -/
def NoSlash (d : Dn.Dn) : Prop := ∀ r ∈ d, ∀ a ∈ r, '/' ∉ a.attributeType ∧ '/' ∉ a.value

/-- A file system in which everything lies in a directory. -/
def WellFormed (fs : Fs) : Prop := ∀ p n, look fs (p ++ [n]) ≠ none → look fs p = some .dir

/-- The path names this directory. -/
structure DirAt (fs : Fs) (path : Str) (base : Path) : Prop where
  path : resolve fs path = .ok base
  dir : look fs base = some .dir

/-- The place of an entry: below the base, a directory for each superior, and a file. -/
def placeOf (base : Path) : Dn.Dn → Path
  | [] => base
  | r :: up => base ++ up.reverse.map (fun s => s.text ++ ".dir".toList) ++ [r.text ++ ".ldif".toList]

/-- The directory in which an entry below these superiors is stored. -/
def dirOf (base : Path) (up : Dn.Dn) : Path := base ++ up.reverse.map dirName

/-- ldiftree.py:173-190: the names of the children found at a path. -/
def childNames (fs : Fs) (s : Str) : List Str :=
  match listDir fs s with
  | .ok names => bases [] names
  | .error _ => []

end Verif.Spec
