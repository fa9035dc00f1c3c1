import Verif.Lemmas.PyStr
import Verif.Model.Match
/-
What it means for a filter to hold of an entry, independently of how it is evaluated.
-/
namespace Verif.Spec
open Verif.Match

/-- The same attribute name: the octets agree up to the case of ASCII letters, whether given as text or as octets. -/
def SameName (x y : PyStr) : Prop := PyStr.lowerBytes x.toBytes = PyStr.lowerBytes y.toBytes

/-- The entry has attribute `a`, with values `vs`. -/
def HasAttr (e : Entry) (a : PyStr) (vs : List PyStr) : Prop := ∃ k, (k, vs) ∈ e.attrs ∧ SameName k a

/-- The same value up to case, as text or as octets. -/
def SameValue (U : Unicode) (x y : PyStr) : Prop := (x.lower U).toBytes = (y.lower U).toBytes

/-- The code points or octets of a string. -/
def codes : PyStr → List Nat
  | .text s => s.map Char.toNat
  | .bytes b => b.map UInt8.toNat

/-- Attribute names are ASCII, and no attribute is listed twice. -/
structure WellNamed (e : Entry) : Prop where
  ascii : ∀ k vs, (k, vs) ∈ e.attrs → k.Ascii
  distinct : e.attrs.Pairwise fun p q => ¬ SameName p.1 q.1

/-- The denotation of a filter: a predicate on entries. -/
inductive Holds (U : Unicode) (e : Entry) : Filter → Bool → Prop where
  | present_yes (a vs) : HasAttr e a vs → Holds U e (.present a) true
  | present_no (a) : (∀ vs, ¬ HasAttr e a vs) → Holds U e (.present a) false
  | equality_yes (a x vs v) : HasAttr e a vs → v ∈ vs → SameValue U v x → Holds U e (.equality a x) true
  | equality_no (a x) : (∀ vs v, HasAttr e a vs → v ∈ vs → ¬ SameValue U v x) → Holds U e (.equality a x) false
  | ge_yes (a x vs v) : HasAttr e a vs → v ∈ vs → codes x ≤ codes v → Holds U e (.greaterOrEqual a x) true
  | ge_no (a x) : (∀ vs v, HasAttr e a vs → v ∈ vs → ¬ codes x ≤ codes v) → Holds U e (.greaterOrEqual a x) false
  | le_yes (a x vs v) : HasAttr e a vs → v ∈ vs → codes v ≤ codes x → Holds U e (.lessOrEqual a x) true
  | le_no (a x) : (∀ vs v, HasAttr e a vs → v ∈ vs → ¬ codes v ≤ codes x) → Holds U e (.lessOrEqual a x) false
  | and_yes (fs) : (∀ f ∈ fs, Holds U e f true) → Holds U e (.and fs) true
  | and_no (fs f) : f ∈ fs → Holds U e f false → Holds U e (.and fs) false
  | or_yes (fs f) : f ∈ fs → Holds U e f true → Holds U e (.or fs) true
  | or_no (fs) : (∀ f ∈ fs, Holds U e f false) → Holds U e (.or fs) false
  | not (f b) : Holds U e f b → Holds U e (.not f) (!b)

/-- A filter of presence, equality and ordering tests whose strings the code can handle: names in ASCII, equality
values that are text or UTF-8, and ordering values of the same kind (text or octets) as the stored ones. -/
inductive Testable (e : Entry) : Filter → Prop where
  | present (a) : a.Ascii → Testable e (.present a)
  | equality (a x) : a.Ascii → x.Decodable → Testable e (.equality a x)
  | ge (a x) : a.Ascii → (∀ vs v, HasAttr e a vs → v ∈ vs → v.isText = x.isText) → Testable e (.greaterOrEqual a x)
  | le (a x) : a.Ascii → (∀ vs v, HasAttr e a vs → v ∈ vs → v.isText = x.isText) → Testable e (.lessOrEqual a x)
  | and (fs) : (∀ f ∈ fs, Testable e f) → Testable e (.and fs)
  | or (fs) : (∀ f ∈ fs, Testable e f) → Testable e (.or fs)
  | not (f) : Testable e f → Testable e (.not f)

end Verif.Spec
