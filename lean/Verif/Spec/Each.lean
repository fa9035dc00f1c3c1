/-
Lists related one by one.
-/
namespace Verif.Spec

/-- Two lists of the same length, related one by one. -/
inductive Each {α β : Type} (R : α → β → Prop) : List α → List β → Prop where
  | nil : Each R [] []
  | cons {a b as bs} : R a b → Each R as bs → Each R (a :: as) (b :: bs)

end Verif.Spec
