import Verif.Model.Schema
/-
What a schema description may consist of (RFC 4512, 4.1), said without the parser or the printer.
-/
namespace Verif.Spec.Schema
open Verif.Schema

/-- White space. -/
def Blank (b : UInt8) : Prop := b ∈ [9, 10, 11, 12, 13, 32]

/-- A word without white space. -/
def Token (w : Bytes) : Prop := w ≠ [] ∧ ∀ b ∈ w, ¬ Blank b

/-- A number in dotted notation. -/
def Numeric (o : Bytes) : Prop := o ≠ [] ∧ ∀ b ∈ o, b = 46 ∨ (48 ≤ b ∧ b ≤ 57)

/-- A text between quotes. -/
def Quotable (s : Bytes) : Prop := (39 : UInt8) ∉ s

/-- A name: neither a quote nor a closing parenthesis. -/
def Name (s : Bytes) : Prop := Quotable s ∧ (41 : UInt8) ∉ s

/-- A reference to another element: a word without a dollar sign or a parenthesis. -/
def Reference (w : Bytes) : Prop := Token w ∧ (36 : UInt8) ∉ w ∧ (40 : UInt8) ∉ w ∧ (41 : UInt8) ∉ w

def Names (name : Option (List Bytes)) : Prop := ∀ l, name = some l → l ≠ [] ∧ ∀ s ∈ l, Name s

def Applications : List Bytes := [kw "userApplications", kw "directoryOperation", kw "distributedOperation", kw "dSAOperation"]

structure ValidAttribute (d : AttributeType) : Prop where
  oid : Numeric d.oid
  name : Names d.name
  desc : ∀ s, d.desc = some s → Quotable s
  words : ∀ w, some w ∈ [d.sup, d.equality, d.ordering, d.substr, d.syntax'] → Token w
  usage : ∀ w, d.usage = some w → w ∈ Applications
  extensions : ∀ x ∈ d.extensions, Token x.1 ∧ x.1.take 2 = kw "X-" ∧
    (∀ s, x.2 = .inl s → Quotable s) ∧ ∀ l, x.2 = .inr l → ∀ s ∈ l, Name s

structure ValidClass (d : ObjectClass) : Prop where
  oid : Numeric d.oid
  name : Names d.name
  desc : ∀ s, d.desc = some s → Quotable s
  type : d.type ∈ [kw "ABSTRACT", kw "STRUCTURAL", kw "AUXILIARY"]
  references : ∀ w, w ∈ d.sup ∨ w ∈ d.must ∨ w ∈ d.may → Reference w
  /-- more than one superior makes a tuple, one a list -/
  tuple : d.supTuple = true ↔ d.sup.length > 1

structure ValidSyntax (d : SyntaxDescription) : Prop where
  oid : Numeric d.oid
  desc : ∀ s, d.desc = some s → Quotable s

structure ValidRule (d : MatchingRule) : Prop where
  oid : Numeric d.oid
  name : Names d.name
  desc : ∀ s, d.desc = some s → Quotable s
  syntax' : Token d.syntax'

end Verif.Spec.Schema
