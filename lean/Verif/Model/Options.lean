import Verif.Model.Connector
/-
Model of /repo/ldaptor/usage.py and of the getters of /repo/ldaptor/config.py.

Simplifications: Twisted's parser of command lines is left out; the model starts with the values it hands over.  The
configuration is what `configparser` answers: its sections, and the values of options after interpolation.  `reflect`
(usage.py:24-29), which finds the checks to be run, is left out.  The messages of errors are left out.
`getIdentitySearch` is in `Model/Identity`.
-/
namespace Verif.Options
open Verif.Dn Verif.Connector

/-- How reading an option ends when it fails: `usage.UsageError`, or another exception, which the tools do not catch. -/
inductive Err where
  | usage
  | py (e : PyErr)
  deriving DecidableEq, Repr

/-- `s.split(":", 1)`, if there is a colon. -/
def splitColon : Str → Option (Str × Str)
  | [] => none
  | c :: s => if c = ':' then some ([], s) else (splitColon s).map fun p => (c :: p.1, p.2)

/-- usage.py:52-55: the host and the port of an option. -/
def hostPort (location : Str) : Location :=
  match splitColon location with
  | some (host, port) => ⟨some host, some (.text port)⟩
  | none => ⟨some location, none⟩

/-- usage.py:43-57: the item that one `--service-location` adds to the dictionary. -/
def readLocation (U : Unicode) (value : Str) : Except Err (Dn × Location) :=
  match splitColon value with
  | none => .error .usage
  | some (base, location) =>
    match Dn.parse U base with
    | .error .invalidDN => .error .usage
    | .error e => .error (.py e)
    | .ok dn => .ok (dn, hostPort location)

/-- usage.py:37-57 `opt_service_location` -/
def optServiceLocation (U : Unicode) (hash : Str → Int) (opts : List (Dn × Location)) (value : Str) :
    Except Err (List (Dn × Location)) :=
  match readLocation U value with
  | .error e => .error e
  | .ok (dn, l) => .ok (dictSet U hash dn l opts)

/-- The options of a command line, in order, starting from no overrides (usage.py:40-41, 59-61). -/
def optAll (U : Unicode) (hash : Str → Int) : List (Dn × Location) → List Str → Except Err (List (Dn × Location))
  | opts, [] => .ok opts
  | opts, v :: vs =>
    match optServiceLocation U hash opts v with
    | .error e => .error e
    | .ok opts => optAll U hash opts vs

/-- usage.py:81-86: the synonyms. -/
def synonyms : List (Str × Str) :=
  [("base".toList, "baseObject".toList), ("single".toList, "singleLevel".toList), ("subtree".toList, "wholeSubtree".toList),
   ("sub".toList, "wholeSubtree".toList)]

/-- pureldap.py:883-885: the names that begin with `LDAP_SCOPE_`. -/
def scopes : List (Str × Int) := [("baseObject".toList, 0), ("singleLevel".toList, 1), ("wholeSubtree".toList, 2)]

/-- usage.py:80-93 `postOptions_scope` -/
def postScope (scope : Str) : Except Err Int :=
  match scopes.lookup ((synonyms.lookup scope).getD scope) with
  | some n => .ok n
  | none => .error .usage

/-- usage.py:69-72 `postOptions_base` -/
def postBase : Option Str → Except Err Unit
  | none => .error .usage
  | some _ => .ok ()

/-- usage.py:102-109 `postOptions_bind_auth_fd_numeric` -/
def postFd : Option Str → Except Err (Option Int)
  | none => .ok none
  | some val =>
    match Decimal.toInt val with
    | .ok n => .ok (some n)
    | .error _ => .error .usage

/-- usage.py:113-115 `postOptions_bind_mandatory` -/
def postBind : Option Str → Except Err Unit
  | none => .error .usage
  | some [] => .error .usage
  | some (_ :: _) => .ok ()

/-- A section of the configuration, and what `cfg.get` answers for its options `host` and `port`. -/
structure Section where
  name : Str
  host : Option Str
  port : Option Str
  deriving DecidableEq, Repr

/-- The parts of the configuration that the getters look at. -/
structure File where
  sections : List Section
  /-- `cfg.get("ldap", "base")` -/
  base : Option Str
  /-- `cfg.get("authentication", "identity-base")` -/
  identityBase : Option Str
  deriving DecidableEq, Repr

/-- `s.strip()` -/
def strip (U : Unicode) (s : Str) : Str := (((s.dropWhile U.space).reverse).dropWhile U.space).reverse

/-- config.py:67-77: an empty value counts as none. -/
def nonEmpty : Option Str → Option Str
  | some [] => none
  | v => v

/-- config.py:64-80: the item that a section adds, if it is one for service locations. -/
def readSection (U : Unicode) (x : Section) : Py (Option (Dn × Location)) :=
  if "service-location ".toList.isPrefixOf (U.lower x.name) then do
    let dn ← Dn.parse U (strip U (x.name.drop 17))
    return some (dn, ⟨nonEmpty x.host, (nonEmpty x.port).map .text⟩)
  else return none

/-- config.py:60-81 `_loadServiceLocationOverrides` -/
def loadOverrides (U : Unicode) (hash : Str → Int) : List (Dn × Location) → List Section → Py (List (Dn × Location))
  | r, [] => .ok r
  | r, x :: xs => do
    match ← readSection U x with
    | none => loadOverrides U hash r xs
    | some (dn, l) => loadOverrides U hash (dictSet U hash dn l r) xs

/-- `d.update(e)` -/
def update (U : Unicode) (hash : Str → Int) {α : Type} (d e : List (Dn × α)) : List (Dn × α) :=
  e.foldl (fun d p => dictSet U hash p.1 p.2 d) d

/-- config.py:17-22, 31-43: an `LDAPConfig`. -/
structure Config where
  baseDN : Option Dn
  overrides : List (Dn × Location)
  identityBaseDN : Option Dn
  identitySearch : Option Str
  deriving DecidableEq, Repr

/-- config.py:24-43 `__init__`, for DNs that have been read: `DistinguishedName` of a DN is the same DN
(distinguishedname.py:243-244). -/
def init (U : Unicode) (hash : Str → Int) (baseDN : Option Dn) (overrides : Option (List (Dn × Location))) (identityBaseDN : Option Dn)
    (identitySearch : Option Str) : Config :=
  ⟨baseDN, build U hash (overrides.getD []), identityBaseDN, identitySearch⟩

/-- The arguments of `copy`: those not given, and those given, which may be `None`. -/
structure Changes where
  baseDN : Option (Option Dn) := none
  overrides : Option (Option (List (Dn × Location))) := none
  identityBaseDN : Option (Option Dn) := none
  identitySearch : Option (Option Str) := none

/-- config.py:83-93 `copy` -/
def copy (U : Unicode) (hash : Str → Int) (c : Config) (kw : Changes) : Config :=
  init U hash (kw.baseDN.getD c.baseDN) (kw.overrides.getD (some c.overrides)) (kw.identityBaseDN.getD c.identityBaseDN)
    (kw.identitySearch.getD c.identitySearch)

/-- config.py:55-58 `getServiceLocationOverrides` -/
def getOverrides (U : Unicode) (hash : Str → Int) (f : File) (c : Config) : Py (List (Dn × Location)) := do
  let r ← loadOverrides U hash [] f.sections
  return update U hash r c.overrides

/-- A base: a DN, or text that no one has read as a DN yet. -/
inductive Base where
  | dn (d : Dn)
  | text (s : Str)
  deriving DecidableEq, Repr

/-- config.py:45-53 `getBaseDN`; `none` is `MissingBaseDNError`. -/
def getBaseDN (f : File) (c : Config) : Option Base :=
  match c.baseDN with
  | some d => some (.dn d)
  | none => f.base.map .text

/-- config.py:95-103 `getIdentityBaseDN` -/
def getIdentityBaseDN (f : File) (c : Config) : Option Base :=
  match c.identityBaseDN with
  | some d => some (.dn d)
  | none =>
    match f.identityBase with
    | some s => some (.text s)
    | none => getBaseDN f c

/-- The tools (fetchschema.py:67-75, and alike in the others): options, then configuration, then the override for a DN
(ldapconnector.py:39-47). -/
def toolOverride (U : Unicode) (hash : Str → Int) (options : List Str) (f : File) (dn : Dn) : Except Err (Option Location) :=
  match optAll U hash [] options with
  | .error e => .error e
  | .ok opts =>
    match getOverrides U hash f (init U hash none (some opts) none none) with
    | .error e => .error (.py e)
    | .ok r => .ok (findOverRide U hash r dn)

end Verif.Options
