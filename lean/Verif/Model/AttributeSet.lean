import Verif.Model.Entry
/-
Model of /repo/ldaptor/attributeset.py.  A set is a list without repeated elements.
-/
namespace Verif.AttributeSet

/-- The first of the given elements that is in the set. -/
def firstIn (s : List PyStr) : List PyStr → Option PyStr
  | [] => none
  | k :: ks => if k ∈ s then some k else firstIn s ks

/-- attributeset.py:50-59 `add` -/
def add (s : List PyStr) (v : PyStr) : Py (List PyStr) := do
  let forms ← v.getStrings
  match firstIn s forms with
  | some _ => return s
  | none => return v :: s

/-- attributeset.py:61-71 `remove` -/
def remove (s : List PyStr) (v : PyStr) : Py (List PyStr) := do
  let forms ← v.getStrings
  match firstIn s forms with
  | some k => return s.erase k
  | none => .error .keyError

/-- `set.update`, which the class does not override. -/
def update (s vs : List PyStr) : List PyStr := vs.foldl (fun s v => if v ∈ s then s else v :: s) s

/-- `s - t` -/
def minus (s t : List PyStr) : List PyStr := s.filter fun v => v ∉ t

end Verif.AttributeSet
