import Verif.Model.Checker
/-
Model of /repo/ldaptor/_scripts/ldap2passwd.py.

Simplifications: an entry is what `obj.items()` gives: attribute types with their values in order, either text or octets;
values that are shown are text or octets only.  Connecting, the filter and the options are left out, and so is what the
client does with an exception of the callback; the model stops at the first.
-/
namespace Verif.Passwd

/-- ldap2passwd.py:9-13: the dictionary `a`. -/
def collect : List (PyStr × List PyStr) → List (Str × List Str) → Py (List (Str × List Str))
  | [], a => .ok a
  | (attr, vals) :: rest, a =>
    match a.lookup (Checker.formatted attr) with
    | some _ => .error .assertionError
    | none => collect rest (a ++ [(Checker.formatted attr, vals.map Checker.formatted)])

/-- `l[0]` -/
def first : List Str → Py Str
  | [] => .error .indexError
  | v :: _ => .ok v

/-- `a[name][0]` -/
def field (a : List (Str × List Str)) (name : Str) : Py Str :=
  match a.lookup name with
  | none => .error .keyError
  | some vs => first vs

/-- ldap2passwd.py:15-27: the line without its end. -/
def line (a : List (Str × List Str)) : Py Str := do
  let uid ← field a "uid".toList
  let uidNumber ← field a "uidNumber".toList
  let gidNumber ← field a "gidNumber".toList
  let gecos ← first ((a.lookup "gecos".toList).getD ((a.lookup "cn".toList).getD [[]]))
  let home ← field a "homeDirectory".toList
  let shell ← first ((a.lookup "loginShell".toList).getD [[]])
  return joinWith [':'] [uid, "x".toList, uidNumber, gidNumber, gecos, home, shell]

/-- ldap2passwd.py:8-27 `_cbSearch`: what it prints. -/
def cbSearch (items : List (PyStr × List PyStr)) : Py Str := do
  let a ← collect items []
  let l ← line a
  return l ++ ['\n']

/-- `_cbSearch` for the entries of a search, and the exception of the first that has one. -/
def printAll : List (List (PyStr × List PyStr)) → Str × Py Unit
  | [] => ([], .ok ())
  | e :: es =>
    match cbSearch e with
    | .error x => ([], .error x)
    | .ok t => (t ++ (printAll es).1, (printAll es).2)

end Verif.Passwd
