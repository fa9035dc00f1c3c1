import Verif.Model.Basic
/-
The parts of Python's `str` that depend on Unicode tables.  The model takes them as a parameter, so every theorem holds
whatever the tables contain.
-/
namespace Verif

/-- Unicode tables used by Python's `str` methods and by `int(x, 16)`. -/
structure Unicode where
  /-- `str.lower()` -/
  lower : Str → Str
  /-- the value of a decimal digit outside ASCII, as accepted by `int()` -/
  digit : Char → Option (Fin 10)
  /-- white space, as stripped by `int()` -/
  space : Char → Bool

/-- Tables restricted to ASCII, for concrete examples. -/
def asciiTables : Unicode where
  lower := fun s => s.map Char.toLower
  digit := fun _ => none
  space := fun c => c = ' ' || c = '\t' || c = '\n' || c = '\r'

/-- The value of a hexadecimal digit, either case. -/
def hexValue (c : Char) : Option Nat :=
  if '0' ≤ c ∧ c ≤ '9' then some (c.toNat - '0'.toNat)
  else if 'a' ≤ c ∧ c ≤ 'f' then some (c.toNat - 'a'.toNat + 10)
  else if 'A' ≤ c ∧ c ≤ 'F' then some (c.toNat - 'A'.toNat + 10)
  else none

/-- An upper-case hexadecimal digit. -/
def hexUpper (n : Nat) : Char := if n < 10 then Char.ofNat (n + '0'.toNat) else Char.ofNat (n - 10 + 'A'.toNat)

/-- Python's `sep.join(l)`. -/
def joinWith (sep : Str) : List Str → Str
  | [] => []
  | [x] => x
  | x :: xs => x ++ sep ++ joinWith sep xs

end Verif
