import Verif.Spec.Match
import Verif.Spec.Search
/-
Vocabulary for LDIF (RFC 2849): what an entry contains, and what can be written as LDIF.
-/
namespace Verif.Spec

/-- The entry has this octet string as a value of attribute `a`. -/
def HasValue (e : Entry) (a : PyStr) (b : Bytes) : Prop := ∃ vs v, HasAttr e a vs ∧ v ∈ vs ∧ v.toBytes = b

/-- The same attributes with the same values, as octets. -/
def SameValues (e e' : Entry) : Prop := ∀ a b, HasValue e a b ↔ HasValue e' a b

/-- An attribute name that keeps its place in an LDIF line: no colon, no newline, no space and no `#` at the start. -/
structure LdifName (b : Bytes) : Prop where
  colon : 58 ∉ b
  newline : 10 ∉ b
  space : b.head? ≠ some 32
  hash : b.head? ≠ some 35

/-- No line is longer than the limit of twisted's LineReceiver, 16384 octets. -/
def ShortLines (text : Bytes) : Prop := ∀ a l c, text = a ++ l ++ c → 10 ∉ l → l.length ≤ 16384

/-- An entry that can be written as LDIF: the names of its attributes are in ASCII, different, and fit for LDIF; its values are
of one kind (otherwise sorting them fails); no attribute type in the DN contains `=` and no RDN is empty (see C10). -/
structure Writable (e : Entry) : Prop where
  named : WellNamed e
  names : ∀ k vs, (k, vs) ∈ e.attrs → LdifName k.toBytes
  kinds : ∀ k vs, (k, vs) ∈ e.attrs → OneKind vs
  types : ∀ r ∈ e.dn, ∀ a ∈ r, '=' ∉ a.attributeType
  rdns : ∀ r ∈ e.dn, r ≠ []

/-- The entry `e'` is `e` as octets: the same DN and values, every attribute and value once, no attribute without values. -/
structure Reads (e e' : Entry) : Prop where
  dn : e'.dn = e.dn
  values : SameValues e e'
  attributes : e'.attrs.Pairwise fun p q => ¬ SameName p.1 q.1
  once : ∀ p ∈ e'.attrs, p.2 ≠ [] ∧ p.2.Nodup ∧ ∀ v ∈ p.2, v.isText = false
  octets : ∀ p ∈ e'.attrs, p.1.isText = false

/-- A DN whose text parses back (see C10). -/
structure PrintableDn (d : Dn.Dn) : Prop where
  types : ∀ r ∈ d, ∀ a ∈ r, '=' ∉ a.attributeType
  rdns : ∀ r ∈ d, r ≠ []

/-- A modification that can be written: values of one kind, and a name fit for LDIF if there are values. -/
structure WritableMod (m : Mod) : Prop where
  kinds : OneKind m.values
  name : m.values ≠ [] → LdifName m.key.toBytes

/-- The same modification, as octets. -/
structure SameMod (m m' : Mod) : Prop where
  kind : m'.kind = m.kind
  key : m'.key = .bytes m.key.toBytes
  values : ∀ v, v ∈ m'.values ↔ ∃ w ∈ m.values, v = .bytes w.toBytes
  once : m'.values.Nodup

end Verif.Spec
