import Verif.Model.Delta
/-
Model of /repo/ldaptor/entry.py:243-253, of the comparisons of entries in /repo/ldaptor/ldiftree.py:290-298, and of the
comparisons of the parts of a DN that /repo/ldaptor/protocols/ldap/distinguishedname.py:152-160, 219-226 derives from `<` and `==`.

Simplifications: arguments of other types are left out; the depth of recursion that Python allows is a number.
-/
namespace Verif.Members
open Verif.Dn

/-- What `hasMember` is asked for. -/
inductive Arg where
  | dn (d : Dn)
  | str (s : PyStr)
  deriving DecidableEq, Repr

/-- entry.py:245 `memberDN == dn`: text and octets leave the comparison to the DN, distinguishedname.py:280-283. -/
def same (v : PyStr) : Arg → Bool
  | .dn d =>
    match v with
    | .text s => d.eqText s
    | .bytes b => Utf8.encode d.text == b
  | .str s => v == s

/-- entry.py:243-247 `hasMember` -/
def hasMember (U : Unicode) (e : Entry) (a : Arg) : Py Bool := do
  let r ← e.get U (.text "member".toList)
  return (r.getD []).any fun v => same v a

/-- entry.py:249-253 `__hash__`, with the hash of texts. -/
def entryHash {α : Type} (hash : Str → α) (e : Entry) : α := hash e.dn.hashKey

/-- ldiftree.py:290-293 `__lt__` -/
def entryLt (U : Unicode) (a b : Entry) : Bool := Dn.lt U a.dn b.dn

/-- ldiftree.py:295-298 `__gt__`: a DN has no `__gt__`, and Python asks the other for `__lt__`. -/
def entryGt (U : Unicode) (a b : Entry) : Bool := Dn.lt U b.dn a.dn

/-- distinguishedname.py:152-153 `__gt__` of a pair: unequal pairs are compared by `>` again; `none` is RecursionError. -/
def pairGt (U : Unicode) : Nat → Ava → Ava → Option Bool
  | 0, _, _ => none
  | depth + 1, a, b => if !(a.eq U b) then pairGt U depth a b else some false

/-- distinguishedname.py:155-156 `__le__` of a pair. -/
def pairLe (U : Unicode) (depth : Nat) (a b : Ava) : Option Bool := (pairGt U depth a b).map fun x => !x

/-- distinguishedname.py:158-159 `__ge__` of a pair. -/
def pairGe (a b : Ava) : Bool := !(a.lt b)

/-- distinguishedname.py:225-226 `__ge__` of an RDN. -/
def rdnGe (U : Unicode) (a b : Rdn) : Bool := !(Rdn.lt U a b)

/-- distinguishedname.py:219-220 `__gt__` of an RDN. -/
def rdnGt (U : Unicode) (a b : Rdn) : Bool := !(Rdn.eq U a b) && rdnGe U a b

/-- distinguishedname.py:222-223 `__le__` of an RDN. -/
def rdnLe (U : Unicode) (a b : Rdn) : Bool := !(rdnGt U a b)

end Verif.Members
