import Verif.Model.FindServer
/-
What C110 says: which lines are to be printed for a reply.
-/
namespace Verif.Spec.FindServer
open Verif.FindServer

/-- The SRV records of a reply, in order. -/
def servers : Reply → List Srv
  | .found sections => sections.flatten.filterMap fun r => match r with
    | .srv x => some x
    | .other => none
  | .failed _ => []

/-- The text for a reply. -/
def textFor (dn : Str) (r : Reply) : Str :=
  match r with
  | .failed m => "ERROR: ".toList ++ m ++ ['\n']
  | r => (servers r).flatMap fun x => dn ++ "\tpri=".toList ++ Decimal.ofInt x.priority ++ " weight=".toList ++ Decimal.ofInt x.weight ++ [' ']
      ++ x.target ++ [':'] ++ Decimal.ofInt x.port ++ ['\n']

/-- Replies to questions that were asked. -/
def Fitting (dns : List Str) (replies : List (Nat × Reply)) : Prop := ∀ p ∈ replies, p.1 < dns.length

end Verif.Spec.FindServer
