/-
The result codes of RFC 2251 section 4.1.10.
-/
namespace Verif.Spec

/-- `resultCode ENUMERATED` of LDAPResult; 9, 35 and 70 are reserved, 15, 22-31, 37-47, 55-63, 72-79 not used. -/
def resultName : Nat → Option String
  | 0 => some "success"
  | 1 => some "operationsError"
  | 2 => some "protocolError"
  | 3 => some "timeLimitExceeded"
  | 4 => some "sizeLimitExceeded"
  | 5 => some "compareFalse"
  | 6 => some "compareTrue"
  | 7 => some "authMethodNotSupported"
  | 8 => some "strongAuthRequired"
  | 10 => some "referral"
  | 11 => some "adminLimitExceeded"
  | 12 => some "unavailableCriticalExtension"
  | 13 => some "confidentialityRequired"
  | 14 => some "saslBindInProgress"
  | 16 => some "noSuchAttribute"
  | 17 => some "undefinedAttributeType"
  | 18 => some "inappropriateMatching"
  | 19 => some "constraintViolation"
  | 20 => some "attributeOrValueExists"
  | 21 => some "invalidAttributeSyntax"
  | 32 => some "noSuchObject"
  | 33 => some "aliasProblem"
  | 34 => some "invalidDNSyntax"
  | 36 => some "aliasDereferencingProblem"
  | 48 => some "inappropriateAuthentication"
  | 49 => some "invalidCredentials"
  | 50 => some "insufficientAccessRights"
  | 51 => some "busy"
  | 52 => some "unavailable"
  | 53 => some "unwillingToPerform"
  | 54 => some "loopDetect"
  | 64 => some "namingViolation"
  | 65 => some "objectClassViolation"
  | 66 => some "notAllowedOnNonLeaf"
  | 67 => some "notAllowedOnRDN"
  | 68 => some "entryAlreadyExists"
  | 69 => some "objectClassModsProhibited"
  | 71 => some "affectsMultipleDSAs"
  | 80 => some "other"
  | _ => none

end Verif.Spec
