import Verif.Model.Text
/-
Model of /repo/ldaptor/protocols/ldap/distinguishedname.py.

Text is `List Char`; byte strings given to the constructors are decoded first (`to_unicode`), which is not part of this
model.  Objects are immutable tuples, represented by lists.
-/
namespace Verif.Dn

/-- distinguishedname.py:10 `escapedChars`. -/
def escapedChars : List Char := [',', '+', '"', '\\', '<', '>', ';', '=']
/-- distinguishedname.py:11 `escapedChars_leading`. -/
def escapedLeading : List Char := [' ', '#']
/-- distinguishedname.py:12 `escapedChars_trailing`. -/
def escapedTrailing : List Char := [' ', '#']

/-- distinguishedname.py:27-33: the loop body of `escape`. -/
def escapeChar (c : Char) : Str :=
  if c ∈ escapedChars then ['\\', c]
  else if c.toNat ≤ 31 then ['\\', hexUpper (c.toNat / 16), hexUpper (c.toNat % 16)]
  else [c]

/-- distinguishedname.py:23-35: `escape` after the leading character has been dealt with. -/
def escapeRest (s : Str) : Str :=
  match s.getLast? with
  | some c =>
    if c ∈ escapedTrailing then s.dropLast.flatMap escapeChar ++ ['\\', c]
    else s.flatMap escapeChar
  | none => []

/-- distinguishedname.py:15-35 `escape`. -/
def escape (s : Str) : Str :=
  match s with
  | [] => []
  | c :: rest => if c ∈ escapedLeading then '\\' :: c :: escapeRest rest else escapeRest (c :: rest)

/-- distinguishedname.py:43 `"0123456789abcdef"`. -/
def lowerHexDigits : List Char := ['0', '1', '2', '3', '4', '5', '6', '7', '8', '9', 'a', 'b', 'c', 'd', 'e', 'f']

/-- `int(s[1:3], 16)` when `s[1]` is a digit of value `d` and `s[2]` is `c`: the second character may be a hexadecimal
digit, a decimal digit outside ASCII or white space; anything else is a `ValueError`. -/
def intHex (U : Unicode) (d : Nat) (c : Char) : Py Nat :=
  match hexValue c with
  | some v => .ok (16 * d + v)
  | none =>
    if U.space c then .ok d
    else match U.digit c with
      | some v => .ok (16 * d + v.val)
      | none => .error .valueError

/-- distinguishedname.py:38-53 `unescape`. -/
def unescape (U : Unicode) : Str → Py Str
  | [] => .ok []
  | '\\' :: c :: rest =>
    if c ∈ lowerHexDigits then
      match rest with
      | [] => .ok [Char.ofNat ((hexValue c).getD 0)]
      | c2 :: rest2 => do
        let v ← intHex U ((hexValue c).getD 0) c2
        let r ← unescape U rest2
        return Char.ofNat v :: r
    else do
      let r ← unescape U rest
      return c :: r
  | ['\\'] => .error .indexError
  | c :: rest => do
    let r ← unescape U rest
    return c :: r

/-- distinguishedname.py:60-78: the loop of `_splitOnNotEscaped`.  `cur` is `r[-1]`; `skip` says that the blanks after a
separator are being dropped (lines 71-73). -/
def splitLoop (sep : Char) : Bool → Str → Str → List Str
  | _, cur, [] => [cur]
  | true, cur, ' ' :: s => splitLoop sep true cur s
  | _, cur, '\\' :: c :: s => splitLoop sep false (cur ++ ['\\', c]) s
  | _, cur, c :: s =>
    if c = sep then cur :: splitLoop sep true [] s else splitLoop sep false (cur ++ [c]) s

/-- distinguishedname.py:56-78 `_splitOnNotEscaped`. -/
def splitOnNotEscaped (s : Str) (sep : Char) : List Str := if s = [] then [] else splitLoop sep false [] s

/-- distinguishedname.py:96-159 `LDAPAttributeTypeAndValue`. -/
structure Ava where
  attributeType : Str
  value : Str
  deriving DecidableEq, Repr

/-- distinguishedname.py:162-229 `RelativeDistinguishedName`: the tuple `attributeTypesAndValues`. -/
abbrev Rdn := List Ava
/-- distinguishedname.py:232-334 `DistinguishedName`: the tuple `listOfRDNs`. -/
abbrev Dn := List Rdn

/-- distinguishedname.py:110-116: `LDAPAttributeTypeAndValue(stringValue=s)`; `s.split("=", 1)`. -/
def Ava.parse (s : Str) : Py Ava :=
  if '=' ∈ s then .ok ⟨s.takeWhile (· ≠ '='), (s.dropWhile (· ≠ '=')).drop 1⟩ else .error .invalidDN

/-- distinguishedname.py:118-119 `LDAPAttributeTypeAndValue.getText`. -/
def Ava.text (a : Ava) : Str := escape a.attributeType ++ '=' :: escape a.value

/-- `tuple(f(x) for x in l)` with exceptions. -/
def mapPy {α β : Type} (f : α → Py β) : List α → Py (List β)
  | [] => .ok []
  | x :: xs => do
    let a ← f x
    let b ← mapPy f xs
    return a :: b

/-- distinguishedname.py:184-187: one component of an RDN. -/
def Ava.read (U : Unicode) (s : Str) : Py Ava := do
  let t ← unescape U s
  Ava.parse t

/-- distinguishedname.py:182-187: `RelativeDistinguishedName(stringValue=s)`. -/
def Rdn.parse (U : Unicode) (s : Str) : Py Rdn := mapPy (Ava.read U) (splitOnNotEscaped s '+')

/-- distinguishedname.py:192-193 `RelativeDistinguishedName.getText`. -/
def Rdn.text (r : Rdn) : Str := joinWith ['+'] (r.map Ava.text)

/-- distinguishedname.py:257-261: `DistinguishedName(stringValue=s)`. -/
def Dn.parse (U : Unicode) (s : Str) : Py Dn := mapPy (Rdn.parse U) (splitOnNotEscaped s ',')

/-- distinguishedname.py:269-270 `DistinguishedName.getText`. -/
def Dn.text (d : Dn) : Str := joinWith [','] (d.map Rdn.text)

/-- distinguishedname.py:266-267 `up`. -/
def Dn.up (d : Dn) : Dn := d.drop 1

/-- distinguishedname.py:132-138 `LDAPAttributeTypeAndValue.__eq__`. -/
def Ava.eq (U : Unicode) (a b : Ava) : Bool :=
  U.lower a.attributeType == U.lower b.attributeType && U.lower a.value == U.lower b.value

/-- Python's `==` on tuples, with the elements' `==`.  (Identical elements count as equal, which agrees with `eq` being
reflexive.) -/
def tupleEq {α : Type} (eq : α → α → Bool) : List α → List α → Bool
  | [], [] => true
  | a :: as, b :: bs => eq a b && tupleEq eq as bs
  | _, _ => false

/-- distinguishedname.py:206-209 `RelativeDistinguishedName.__eq__`. -/
def Rdn.eq (U : Unicode) (a b : Rdn) : Bool := tupleEq (Ava.eq U) a b

/-- distinguishedname.py:278-285 `DistinguishedName.__eq__` with another DN. -/
def Dn.eq (U : Unicode) (a b : Dn) : Bool := tupleEq (Rdn.eq U) a b

/-- distinguishedname.py:281-282 `DistinguishedName.__eq__` with a text. -/
def Dn.eqText (a : Dn) (s : Str) : Bool := a.text == s

/-- distinguishedname.py:129-130: what `LDAPAttributeTypeAndValue.__hash__` hashes. -/
def Ava.hashKey (a : Ava) : Str × Str := (a.attributeType, a.value)
/-- distinguishedname.py:203-204: what `RelativeDistinguishedName.__hash__` hashes: a tuple, hence the hashes of its
elements. -/
def Rdn.hashKey (r : Rdn) : List (Str × Str) := r.map Ava.hashKey
/-- distinguishedname.py:275-276: what `DistinguishedName.__hash__` hashes. -/
def Dn.hashKey (d : Dn) : Str := d.text

/-- Python's `<` on strings: lexicographic by code point. -/
def strLt : Str → Str → Bool
  | [], [] => false
  | [], _ :: _ => true
  | _ :: _, [] => false
  | a :: as, b :: bs => if a = b then strLt as bs else a.toNat < b.toNat

/-- distinguishedname.py:143-149 `LDAPAttributeTypeAndValue.__lt__`. -/
def Ava.lt (a b : Ava) : Bool :=
  if a.attributeType ≠ b.attributeType then strLt a.attributeType b.attributeType else strLt a.value b.value

/-- Python's `<` on tuples: compare the first elements that are not `==`, otherwise the lengths. -/
def tupleLt {α : Type} (eq lt : α → α → Bool) : List α → List α → Bool
  | [], [] => false
  | [], _ :: _ => true
  | _ :: _, [] => false
  | a :: as, b :: bs => if eq a b then tupleLt eq lt as bs else lt a b

/-- distinguishedname.py:214-217 `RelativeDistinguishedName.__lt__`. -/
def Rdn.lt (U : Unicode) (a b : Rdn) : Bool := tupleLt (Ava.eq U) Ava.lt a b

/-- distinguishedname.py:290-299 `DistinguishedName.__lt__`. -/
def Dn.lt (U : Unicode) (a b : Dn) : Bool := tupleLt (Rdn.eq U) (Rdn.lt U) a b

/-- distinguishedname.py:327-334: the loop of `contains`, on the lists in reverse order (the code pops from the end). -/
def containsLoop (U : Unicode) : List Rdn → List Rdn → Bool
  | m :: mine, i :: its => if Rdn.eq U m i then containsLoop U mine its else false
  | mine, _ => mine.isEmpty

/-- distinguishedname.py:318-334 `DistinguishedName.contains` with another DN. -/
def Dn.contains (U : Unicode) (self other : Dn) : Bool :=
  if Dn.eq U self other then true else containsLoop U self.reverse other.reverse

/-- distinguishedname.py:318-334 `DistinguishedName.contains` with a text. -/
def Dn.containsText (U : Unicode) (self : Dn) (other : Str) : Py Bool :=
  if Dn.eqText self other then .ok true else do
    let o ← Dn.parse U other
    return containsLoop U self.reverse o.reverse

/-- distinguishedname.py:303-310: the loop of `getDomainName`, on the reversed list; `acc` is `domainParts`. -/
def domainLoop (upper : Str → Str) : List Rdn → List Str → List Str
  | [⟨t, v⟩] :: rest, acc => if upper t = ['D', 'C'] then domainLoop upper rest (v :: acc) else acc
  | _, acc => acc

/-- distinguishedname.py:301-316 `DistinguishedName.getDomainName`; `upper` is `str.upper`. -/
def Dn.getDomainName (upper : Str → Str) (d : Dn) : Option Str :=
  match domainLoop upper d.reverse [] with
  | [] => none
  | parts => some (joinWith ['.'] parts)

end Verif.Dn
