/-
Shared vocabulary of the model.

Python values are represented as follows:
* `bytes`        -> `Bytes`  (`List UInt8`)
* `str`          -> `Str`    (`List Char`; Lean's `Char` excludes lone surrogates, which Python allows)
* an exception   -> `.error e` in `Py α = Except PyErr α`
-/
namespace Verif

abbrev Bytes := List UInt8
abbrev Str := List Char

/-- The Python exceptions that the modelled code can raise.  `other` stands for an exception whose class
plays no role in the modelled control flow. -/
inductive PyErr where
  | insufficientData        -- pureber.BERExceptionInsufficientData
  | assertionError
  | attributeError
  | indexError
  | keyError
  | typeError
  | valueError
  | unicodeError
  | zeroDivision
  | noSuchObject            -- ldaperrors.LDAPNoSuchObject
  | alreadyExists           -- ldaperrors.LDAPEntryAlreadyExists
  | notAllowedOnNonLeaf     -- ldaperrors.LDAPNotAllowedOnNonLeaf
  | cannotRemoveRoot        -- LDAPCannotRemoveRootError
  | parseError              -- ldapfilter.InvalidLDAPFilter, ldif ParseError, schema errors
  | invalidDN               -- distinguishedname.InvalidRelativeDistinguishedName
  | notImplemented          -- MatchNotImplemented and friends
  | osError                 -- OSError
  | recursionDepth          -- model artefact: recursion bound exhausted (proved unreachable)
  | other
  deriving DecidableEq, Repr, Inhabited

abbrev Py := Except PyErr

deriving instance DecidableEq for Except

end Verif
