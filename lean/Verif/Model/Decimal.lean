import Verif.Model.Basic
/-
Python's conversions between integers and decimal text.
-/
namespace Verif.Decimal

/-- `str(n)`, `"%d" % n` -/
def ofInt : Int → Str
  | .ofNat n => Nat.toDigits 10 n
  | .negSucc n => '-' :: Nat.toDigits 10 (n + 1)

/-- The value of a run of digits, at least one. -/
def digits (s : Str) : Py Nat :=
  if s ≠ [] ∧ s.all Char.isDigit then .ok (Nat.ofDigitChars 10 s 0) else .error .valueError

/-- `int(s)` for an optional sign and ASCII digits.  Python also accepts surrounding white space, underscores between
digits and digits outside ASCII; the model refuses those. -/
def toInt : Str → Py Int
  | '-' :: s => do
    let n ← digits s
    return -(n : Int)
  | '+' :: s => do
    let n ← digits s
    return n
  | s => do
    let n ← digits s
    return n

end Verif.Decimal
