import Verif.Spec.Message
import Verif.Spec.Syntax
/-
Specification of what a program gets to see of the responses to a search (RFC 4511, 4.5.2).
-/
namespace Verif.Spec
open Verif.Ldap Verif.Spec.Modify

/-- Octets that stand for a DN. -/
def Means (U : Unicode) (b : Bytes) (d : Dn.Dn) : Prop := ∃ s, Utf8.decode b = .ok s ∧ Dn.Dn.parse U s = .ok d

/-- Attributes as they are sent: names are ASCII, and each is there once. -/
structure Attrs.Proper (as : Attrs) : Prop where
  ascii : ∀ p ∈ as, (PyStr.bytes p.1).Ascii
  once : as.Pairwise fun p q => fold p.1 ≠ fold q.1

/-- The entry a program gets for a response: the DN, all the values and no others, as octets, each name once; no edits, and not
deleted. -/
structure FoundAs (U : Unicode) (complete : Bool) (dn : Bytes) (as : Attrs) (e : Syntax.St) : Prop where
  dn : Means U dn e.dn
  attrs : ∀ n v, Has e.attrs n v ↔ ∃ p ∈ as, fold p.1 = n ∧ ∃ b ∈ p.2, v = .bytes b
  names : ∀ p ∈ as, ∃ vs, (PyStr.bytes p.1, vs) ∈ e.attrs
  sets : ∀ p ∈ e.attrs, p.2.Nodup
  named : allOctets.Named e.attrs
  remote : e.remote = e.attrs
  journal : e.journal = []
  ready : e.deleted = false
  complete : e.complete = complete

/-- The responses before the last one, with the entries they bring, in order: references bring none. -/
inductive Brings (U : Unicode) (complete : Bool) : List Obj → List Syntax.St → Prop where
  | nil : Brings U complete [] []
  | reference {m ms us es} : readOp m = some (.reference us) → Brings U complete ms es → Brings U complete (m :: ms) es
  | entry {m ms e es dn as} : readOp m = some (.entry dn as) → FoundAs U complete dn as e → Brings U complete ms es →
      Brings U complete (m :: ms) (e :: es)

/-- Responses a server may send before the last one: references, and entries with a DN and proper attributes. -/
def Sound (U : Unicode) (m : Obj) : Prop :=
  (∃ us, readOp m = some (.reference us)) ∨ ∃ dn as d, readOp m = some (.entry dn as) ∧ Means U dn d ∧ as.Proper

end Verif.Spec
