import Verif.Model.Decimal
/-
Model of the number assignments in /repo/ldaptor/protocols/ldap/autofill/sambaAccount.py and sambaSamAccount.py.

`notify` is given the values of the attribute it is told about, as text, and yields the attribute it sets with its values.
-/
namespace Verif.Samba

/-- `assert len(l) == 1` and the loop that returns in its first round. -/
def single (vs : List Str) : Py Str :=
  match vs with
  | [v] => .ok v
  | _ => .error .assertionError

/-- sambaAccount.py:23-42 `notify` -/
def notifyAccount (attributeType : Str) (values : List Str) : Py (Option (Str × List Str)) :=
  if attributeType = "uidNumber".toList then do
    let v ← single values
    let uid ← Decimal.toInt v
    return some ("rid".toList, [Decimal.ofInt (uid * 2 + 1000)])
  else if attributeType = "gidNumber".toList then do
    let v ← single values
    let gid ← Decimal.toInt v
    return some ("primaryGroupID".toList, [Decimal.ofInt (gid * 2 + 1001)])
  else return none

/-- sambaSamAccount.py:8-10: the configuration. -/
structure SamConfig where
  domainSID : Str
  fixedPrimaryGroupSID : Option Int
  deriving DecidableEq, Repr

/-- `"%s-%d" % (self.domainSID, n)` -/
def SamConfig.sid (c : SamConfig) (n : Int) : Str := c.domainSID ++ '-' :: Decimal.ofInt n

/-- sambaSamAccount.py:43-61 `notify` -/
def notifySam (c : SamConfig) (attributeType : Str) (values : List Str) : Py (Option (Str × List Str)) :=
  if attributeType = "uidNumber".toList then do
    let v ← single values
    let uid ← Decimal.toInt v
    return some ("sambaSID".toList, [c.sid (uid * 2 + 1000)])
  else if c.fixedPrimaryGroupSID = none ∧ attributeType = "gidNumber".toList then do
    let v ← single values
    let gid ← Decimal.toInt v
    return some ("sambaPrimaryGroupSID".toList, [c.sid (gid * 2 + 1001)])
  else return none

end Verif.Samba
