import Verif.Model.Decimal
import Verif.Model.PyStr
/-
Model of /repo/ldaptor/protocols/ldap/ldaperrors.py.
-/
namespace Verif.Errors

/-- ldaperrors.py:12-24: the classes that register themselves, in the order of their definition, as `(resultCode, name)`.
Lines 44-46 and 84-286. -/
def collection : List (Int × String) :=
  [(0, "success"), (1, "operationsError"), (2, "protocolError"), (3, "timeLimitExceeded"), (4, "sizeLimitExceeded"),
   (5, "compareFalse"), (6, "compareTrue"), (7, "authMethodNotSupported"), (8, "strongAuthRequired"), (10, "referral"),
   (11, "adminLimitExceeded"), (12, "unavailableCriticalExtension"), (13, "confidentialityRequired"),
   (14, "saslBindInProgress"), (16, "noSuchAttribute"), (17, "undefinedAttributeType"), (18, "inappropriateMatching"),
   (19, "constraintViolation"), (20, "attributeOrValueExists"), (21, "invalidAttributeSyntax"), (32, "noSuchObject"),
   (33, "aliasProblem"), (34, "invalidDNSyntax"), (36, "aliasDereferencingProblem"), (48, "inappropriateAuthentication"),
   (49, "invalidCredentials"), (50, "insufficientAccessRights"), (51, "busy"), (52, "unavailable"), (53, "unwillingToPerform"),
   (54, "loopDetect"), (64, "namingViolation"), (65, "objectClassViolation"), (66, "notAllowedOnNonLeaf"),
   (67, "notAllowedOnRDN"), (68, "entryAlreadyExists"), (69, "objectClassModsProhibited"), (71, "affectsMultipleDSAs"),
   (80, "other")]

/-- What `get` returns: an instance of `Success`, of the class registered for a code, or of `LDAPUnknownError`. -/
inductive Obj where
  | success
  | known (code : Int) (name : String) (message : Option PyStr)
  | unknown (code : Int) (message : Option PyStr)
  deriving DecidableEq, Repr

/-- ldaperrors.py:4-6 `get` and 26-32 `get_instance`.  `Success` drops the message (line 48). -/
def get (code : Int) (message : Option PyStr) : Obj :=
  match collection.find? (fun p => p.1 == code) with
  | some (0, _) => .success
  | some (c, n) => .known c n message
  | none => .unknown code message

/-- The attribute `resultCode`: of `LDAPUnknownError` it is the one inherited from `LDAPResult`, `None` (line 36). -/
def Obj.resultCode : Obj → Option Int
  | .success => some 0
  | .known c _ _ => some c
  | .unknown _ _ => none

/-- The attribute `name`. -/
def Obj.name : Obj → Option String
  | .success => some "success"
  | .known _ n _ => some n
  | .unknown _ _ => none

/-- The attribute `code`, which only `LDAPUnknownError` has (line 74). -/
def Obj.code : Obj → Option Int
  | .unknown c _ => some c
  | _ => none

/-- `if self.message` -/
def truthy : Option PyStr → Option Bytes
  | none => none
  | some m => if m.toBytes = [] then none else some m.toBytes

/-- ASCII text as octets. -/
def octets (s : Str) : Bytes := Utf8.encode s

/-- ldaperrors.py:60-65 and 77-82 `toWire`; `Success` has none. -/
def Obj.toWire : Obj → Py Bytes
  | .success => .error .attributeError
  | .known _ n m =>
    match truthy m with
    | some b => .ok (octets n.toList ++ octets [':', ' '] ++ b)
    | none => .ok (octets n.toList)
  | .unknown c m =>
    let codeName := octets ("unknownError(".toList ++ Decimal.ofInt c ++ [')'])
    match truthy m with
    | some b => .ok (codeName ++ octets [':', ' '] ++ b)
    | none => .ok codeName

end Verif.Errors
