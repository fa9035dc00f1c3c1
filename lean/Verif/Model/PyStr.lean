import Verif.Model.Text
import Verif.Model.Utf8
/-
Python strings of either kind, and /repo/ldaptor/_encoder.py.
-/
namespace Verif

/-- A Python `str` or `bytes` object.  Attribute names and values are either. -/
inductive PyStr where
  | text (s : Str)
  | bytes (b : Bytes)
  deriving DecidableEq, Repr, Inhabited

namespace PyStr

/-- _encoder.py:8-22 `to_bytes` on strings. -/
def toBytes : PyStr → Bytes
  | .text s => Utf8.encode s
  | .bytes b => b

/-- _encoder.py:25-34 `to_unicode` on strings. -/
def toUnicode : PyStr → Py Str
  | .text s => .ok s
  | .bytes b => Utf8.decode b

/-- _encoder.py:37-47 `get_strings`: the tuple is built before it is returned, so octets that are not UTF-8 raise. -/
def getStrings : PyStr → Py (List PyStr)
  | .text s => .ok [.text s, .bytes (Utf8.encode s)]
  | .bytes b => do
    let s ← Utf8.decode b
    return [.bytes b, .text s]

/-- ASCII lower-casing of an octet. -/
def lowerByte (b : UInt8) : UInt8 := if 65 ≤ b ∧ b ≤ 90 then b + 32 else b

/-- `bytes.lower()` -/
def lowerBytes (b : Bytes) : Bytes := b.map lowerByte

/-- `x.lower()` -/
def lower (U : Unicode) : PyStr → PyStr
  | .text s => .text (U.lower s)
  | .bytes b => .bytes (lowerBytes b)

/-- `len(x)` -/
def len : PyStr → Nat
  | .text s => s.length
  | .bytes b => b.length

/-- `x[n:]` for `n ≥ 0` -/
def dropFront (n : Nat) : PyStr → PyStr
  | .text s => .text (s.drop n)
  | .bytes b => .bytes (b.drop n)

/-- `l[:-n]` for `n ≥ 0`: note that `l[:-0]` is empty. -/
def sliceBack {α : Type} (n : Nat) (l : List α) : List α := if n = 0 then [] else l.take (l.length - n)

/-- `x[:-n]` for `n ≥ 0` -/
def dropBack (n : Nat) : PyStr → PyStr
  | .text s => .text (sliceBack n s)
  | .bytes b => .bytes (sliceBack n b)

/-- `x.startswith(y)`; mixing kinds raises TypeError. -/
def startsWith : PyStr → PyStr → Py Bool
  | .text s, .text t => .ok (t.isPrefixOf s)
  | .bytes s, .bytes t => .ok (t.isPrefixOf s)
  | _, _ => .error .typeError

/-- `x.endswith(y)` -/
def endsWith : PyStr → PyStr → Py Bool
  | .text s, .text t => .ok (t.isSuffixOf s)
  | .bytes s, .bytes t => .ok (t.isSuffixOf s)
  | _, _ => .error .typeError

/-- The lowest index at which `t` occurs in the list. -/
def findIn {α : Type} [BEq α] (t : List α) : List α → Option Nat
  | [] => if t.isPrefixOf [] then some 0 else none
  | a :: s => if t.isPrefixOf (a :: s) then some 0 else (findIn t s).map (· + 1)

/-- `x.find(y)`, `none` for -1 -/
def find : PyStr → PyStr → Py (Option Nat)
  | .text s, .text t => .ok (findIn t s)
  | .bytes s, .bytes t => .ok (findIn t s)
  | _, _ => .error .typeError

/-- Lexicographic `l <= m` of sequences of numbers. -/
def lexLe : List Nat → List Nat → Bool
  | [], _ => true
  | _ :: _, [] => false
  | a :: l, b :: m => if a < b then true else if a = b then lexLe l m else false

/-- `x <= y`; mixing kinds raises TypeError. -/
def le : PyStr → PyStr → Py Bool
  | .text s, .text t => .ok (lexLe (s.map Char.toNat) (t.map Char.toNat))
  | .bytes s, .bytes t => .ok (lexLe (s.map UInt8.toNat) (t.map UInt8.toNat))
  | _, _ => .error .typeError

end PyStr

/-- `[x for x in l if p(x)]` where the test may raise. -/
def filterPy {α : Type} (p : α → Py Bool) : List α → Py (List α)
  | [] => .ok []
  | a :: l => do
    let b ← p a
    let r ← filterPy p l
    return if b then a :: r else r

/-- `for x in l: if p(x): return True` / `return False`, where the test may raise. -/
def anyPy {α : Type} (p : α → Py Bool) : List α → Py Bool
  | [] => .ok false
  | a :: l => do
    let b ← p a
    if b then return true else anyPy p l

end Verif
