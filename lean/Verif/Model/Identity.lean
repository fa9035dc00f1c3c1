import Verif.Model.FilterText
/-
Model of identity searches, /repo/ldaptor/config.py.
-/
namespace Verif.Identity

/-- config.py:105-118 `getIdentitySearch` when no search is configured: `"(|(cn=%(name)s)(uid=%(name)s))" % data`. -/
def defaultSearch (name : Str) : Str := "(|(cn=".toList ++ name ++ ")(uid=".toList ++ name ++ "))".toList

/-- config.py:110-111 `getIdentitySearch` when `identitySearch` is set: `self.identitySearch % data`.  A template is a
list of literal texts and of places for the name (`none`). -/
def templateSearch (template : List (Option Str)) (name : Str) : Str := template.flatMap fun p => p.getD name

end Verif.Identity
