import Verif.Spec.Match
/-
The shape a substring filter describes.
-/
namespace Verif.Spec
open Verif.Match

/-- The pieces occur in the list in order, without overlap. -/
inductive InOrder {α : Type} : List (List α) → List α → Prop where
  | nil (m : List α) : InOrder [] m
  | cons (gap p : List α) (ps : List (List α)) (m : List α) : InOrder ps m → InOrder (p :: ps) (gap ++ p ++ m)

/-- `initial*any1*...*anyN*final` -/
structure Shape where
  initial : Option PyStr
  anys : List PyStr
  final : Option PyStr

/-- The elements of the filter object. -/
def Shape.pieces (s : Shape) : List Piece := s.initial.toList.map .initial ++ s.anys.map .any ++ s.final.toList.map .final

/-- All strings of the shape. -/
def Shape.strings (s : Shape) : List PyStr := s.initial.toList ++ s.anys ++ s.final.toList

/-- The lower-cased code points or octets of a string. -/
def lowCodes (U : Unicode) (x : PyStr) : List Nat := codes (x.lower U)

/-- The value can be cut into the initial piece, a middle that contains the others in order, and the final piece,
ignoring case. -/
def Shape.Fits (U : Unicode) (s : Shape) (v : PyStr) : Prop :=
  ∃ mid, lowCodes U v = (s.initial.map (lowCodes U)).getD [] ++ mid ++ (s.final.map (lowCodes U)).getD [] ∧
    InOrder (s.anys.map (lowCodes U)) mid

/-- All strings are octets, or all are text from an alphabet on which lower-casing works character by character. -/
inductive Uniform (U : Unicode) (xs : List PyStr) : Prop where
  | bytes : (∀ x ∈ xs, ∃ b, x = .bytes b) → Uniform U xs
  | text (A : Char → Prop) (f : Char → Char) : (∀ s : Str, (∀ c ∈ s, A c) → U.lower s = s.map f) →
      (∀ x ∈ xs, ∃ s : Str, x = .text s ∧ ∀ c ∈ s, A c) → Uniform U xs

end Verif.Spec
