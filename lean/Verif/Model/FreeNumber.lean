import Verif.Model.Session
import Verif.Model.FilterObj
import Verif.Model.NumberAlloc
import Verif.Model.Decimal
/-
Model of `ldapGuesser` and `getFreeNumber`, /repo/ldaptor/numberalloc.py:38-57; the search for the number itself is in
`Model/NumberAlloc`.
-/
namespace Verif.FreeNumber
open Verif.Ldap

/-- numberalloc.py:44-50: the request of a guess, with the defaults of ldapsyntax.py:676-712. -/
def request (d : Dn.Dn) (numberType : Str) (num : Int) : Obj :=
  Session.searchRequest d 2 0 1 0 false
    (.ava .fEq 0x83 (FilterText.stringObj numberType) (FilterText.stringObj (Decimal.ofInt num))) []

/-- numberalloc.py:51-52: what the Deferred of `guess` is given, once the search has ended. -/
def count (r : ClientSearch.Running) : Option (Except ClientSearch.Outcome Nat) :=
  match r.outcome with
  | none => none
  | some .finished => some (.ok r.entries.length)
  | some o => some (.error o)

/-- numberalloc.py:18-35 `_nextGuess(found, lastGuess)` with the number that `guess` gives. -/
def next (g : NumberAlloc.Guesser) (found : Nat) (last : Int) : NumberAlloc.Next :=
  NumberAlloc.choose (NumberAlloc.learn g (decide (found ≠ 0)) last)

end Verif.FreeNumber
