import Verif.Model.Pwgen
/-
Specification vocabulary for generated passwords.
-/
namespace Verif.Spec.Pwgen
open Verif.Pwgen (Event)

/-- The lines of a text that are not empty; the last need not end. -/
inductive Lines : Str → List Str → Prop
  | nil : Lines [] []
  | last {l} : l ≠ [] → '\n' ∉ l → Lines l [l]
  | blank {s ls} : Lines s ls → Lines ('\n' :: s) ls
  | line {l s ls} : l ≠ [] → '\n' ∉ l → Lines s ls → Lines (l ++ '\n' :: s) (l :: ls)

/-- All text of standard output. -/
def output (es : List Event) : Str := es.flatMap fun e =>
  match e with
  | .out (.text t) => t
  | _ => []

/-- All text of standard error. -/
def complaints (es : List Event) : Str := es.flatMap fun e =>
  match e with
  | .err (.text t) => t
  | _ => []

end Verif.Spec.Pwgen
