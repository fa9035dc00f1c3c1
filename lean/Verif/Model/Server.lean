import Verif.Model.Ldap
import Verif.Model.Tree
import Verif.Model.Password
import Verif.Model.Equality
/-
Model of /repo/ldaptor/protocols/ldap/ldapserver.py: the dispatch of `BaseLDAPServer.handle` for arbitrary handlers, and
`LDAPServer` serving an in-memory directory (inmemory.py).

Simplifications:
* the texts of Python's own exceptions are a parameter; so are the salts of new passwords, the hash function, the order in
  which Python iterates over the two spellings of `objectClass` and of `userPassword`;
* an attribute name or value in an add, modify or search request that is not an octet string is taken to raise (the code
  would store the number);
* the four messages for malformed password-modify requests (twice the same part, a foreign part) are one;
* logging is left out and taken not to raise (`Model/Log` has the messages for which it does); `transport.loseConnection()` has no effect on the messages that were already received.
-/
namespace Verif.Server
open Verif.Ldap Verif.Dn Verif.Tree

/-- ASCII text as octets. -/
def ascii (s : String) : Bytes := Utf8.encode s.toList

/-- `isinstance(x, pureldap.LDAPProtocolRequest)`, pureldap.py:138. -/
def isRequest : Obj → Bool
  | .null .unbindRequest _ | .int .abandonRequest _ _ | .oct .delRequest _ _ | .bind .. | .searchRequest ..
  | .modifyRequest .. | .addRequest .. | .modifyDN .. | .compare .. | .extRequest .. => true
  | _ => false

/-- The message of an LDAPException: `None`, a string, or another object. -/
inductive Message where
  | none
  | text (b : Bytes)
  | object
  deriving DecidableEq, Repr

/-- pureldap.py:310-312: `errorMessage` of a response.  An object that is neither text nor octets has no octets: `to_bytes`
raises TypeError when the response is encoded (_encoder.py:22), as it does for `None`. -/
def Message.value : Message → PyVal
  | .none => .bytes []
  | .text b => .bytes b
  | .object => .none

/-- The response classes, with an empty `matchedDN`. -/
def respond (c : Cls) (tag : UInt8) (code : Int) (m : Message) : Obj :=
  .result c tag (.int code) (.bytes []) m.value .none

/-- pureldap.py:1668-1689 `LDAPExtendedResponse(...)`. -/
def extRespond (code : Int) (m : Message) (name : PyVal) : Obj :=
  .extResponse 0x58 (.int code) (.bytes []) m.value name .none

/-- ldapserver.py:69, 91: the response name of an answer to an unknown request. -/
def noticeName : PyVal := .bytes (ascii "1.3.6.1.4.1.1466.20036")

/-- ldapserver.py:95-97 `_callErrorHandler` in `LDAPServer`: `fail_<class of the request>`, lines 136, 207, 297, 321, 342,
365, 398, 416; otherwise `failDefault`, 88-93. -/
def failWith (request : Obj) (code : Int) (m : Message) : Obj :=
  match request with
  | .bind .. => respond .bindResponse 0x41 code m
  | .compare .. => respond .compareResponse 0x4F code m
  | .searchRequest .. => respond .searchResultDone 0x45 code m
  | .oct .delRequest _ _ => respond .delResponse 0x4B code m
  | .addRequest .. => respond .addResponse 0x49 code m
  | .modifyDN .. => respond .modifyDNResponse 0x4D code m
  | .modifyRequest .. => respond .modifyResponse 0x47 code m
  | .extRequest .. => extRespond code m .none
  | _ => extRespond code m noticeName

/-- ldapserver.py:53-59 `queue`: whether the message can be encoded; otherwise the call raises. -/
def encodes (id : PyVal) (op : Obj) : Bool := (toWire (.message id op none)).isOk

/-! ### The handlers of `LDAPServer` -/

/-- What does not change while the program runs: Unicode, the hash function, and the iteration order of the two sets of
keys, entry.py:37-39. -/
structure Env where
  U : Unicode
  sha1 : Bytes → Bytes
  passwordTextFirst : Bool
  classTextFirst : Bool

/-- What is chosen anew for each request: the salt, entry.py:19-20, and the texts of exceptions. -/
structure Luck where
  salt : Bytes
  text : PyErr → Bytes

/-- `self.boundUser`, ldapserver.py:134, and the entries.  The root of the directory is node 0. -/
structure State where
  heap : Heap
  bound : Option Nat
  deriving DecidableEq, Repr, Inhabited

/-- An exception leaving a handler: an LDAPException built in ldapserver.py, or one from elsewhere. -/
inductive Fault where
  | ldap (code : Int) (m : Message)
  | py (e : PyErr)
  deriving DecidableEq, Repr

/-- `resultCode` of an exception that is an LDAPException. -/
def ldapCode : PyErr → Option Int
  | .noSuchObject => some 32
  | .alreadyExists => some 68
  | .notAllowedOnNonLeaf => some 66
  | .cannotRemoveRoot => some 64
  | _ => none

/-- The message of an exception raised outside ldapserver.py.  Two of those come only from deleting; see `deleteFault`. -/
def messageOf (luck : Luck) (e : PyErr) : Message := .text (luck.text e)

/-- ldapserver.py:76-82 `_cbLDAPError` and 99-104 `_cbOtherError`: result code and message for an exception. -/
def Fault.report (luck : Luck) : Fault → Int × Message
  | .ldap c m => (c, m)
  | .py e => ((ldapCode e).getD 2, messageOf luck e)

/-- ldapserver.py:240-247, 287-295: the errbacks of compare and search: an LDAPException is reported without its message,
anything else as `other`. -/
def Fault.reportSearch (luck : Luck) : Fault → Int × Message
  | .ldap c _ => (c, .none)
  | .py e =>
    match ldapCode e with
    | some c => (c, .none)
    | none => (80, messageOf luck e)

abbrev Act := Except Fault

def lift {α : Type} : Py α → Act α
  | .ok a => .ok a
  | .error e => .error (.py e)

/-- ldapserver.py:67-69; `b"%s" % x` is a TypeError unless `x` is octets. -/
def criticalFault : PyVal → Fault
  | .bytes t => .ldap 12 (.text (ascii "Unknown control " ++ t))
  | _ => .py .typeError

/-- ldapserver.py:65-69: the loop of `checkControls`. -/
def checkEach : List (PyVal × PyVal × PyVal) → Act Unit
  | [] => .ok ()
  | c :: cs => if c.2.1.truthy then .error (criticalFault c.1) else checkEach cs

/-- ldapserver.py:63-69 `checkControls` -/
def checkControls : Option (List (PyVal × PyVal × PyVal)) → Act Unit
  | none => .ok ()
  | some cs => checkEach cs

/-- distinguishedname.py:237-261 `DistinguishedName(x)` for a received value. -/
def readDn (U : Unicode) : PyVal → Py Dn.Dn
  | .bytes b => do
    let s ← Utf8.decode b
    Dn.parse U s
  | .int _ => .error .typeError
  | .none => .error .assertionError

/-- distinguishedname.py:166-190 `RelativeDistinguishedName(x)` for a received value. -/
def readRdn (U : Unicode) : PyVal → Py Rdn
  | .bytes b => do
    let s ← Utf8.decode b
    Rdn.parse U s
  | .int _ => .error .typeError
  | .none => .error .assertionError

/-- The octets of the DN of a node, `entry.dn.getText()` written to the wire. -/
def dnOctets (h : Heap) (i : Nat) : Bytes := Utf8.encode (dnOf h i).text

/-- _encoder.py:8-22 `to_bytes` on `request.auth`, entry.py:228.  `bytes((a, b))` of a SASL tuple wants two integers below
256. -/
def authBytes : Auth → Py Bytes
  | .simple v => toBytes v
  | .sasl (.int a) (.int b) =>
    if 0 ≤ a ∧ a < 256 ∧ 0 ≤ b ∧ b < 256 then .ok [UInt8.ofNat a.toNat, UInt8.ofNat b.toNat] else .error .valueError
  | .sasl _ _ => .error .typeError

/-- ldapserver.py:140-143: `if request.version != 3`; `"%u" % x` is a TypeError unless `x` is a number. -/
def checkVersion (version : PyVal) : Act Unit :=
  if version = .int 3 then .ok ()
  else match version with
    | .int v => .error (.ldap 2 (.text (ascii "Version " ++ decimal v ++ ascii " not supported")))
    | _ => .error (.py .typeError)

/-- The entry at a node. -/
def entryAt (h : Heap) (i : Nat) : Entry := ((h[i]?).map (·.entry)).getD ⟨[], []⟩

/-- ldapserver.py:138-179 `handle_LDAPBindRequest`: the new bound user and the response. -/
def handleBind (env : Env) (st : State) (version dn : PyVal) (auth : Auth)
    (controls : Option (List (PyVal × PyVal × PyVal))) : Act (Option Nat × Obj) := do
  checkVersion version
  checkControls controls
  if dn = .bytes [] then return (none, respond .bindResponse 0x41 0 .none)
  else do
    let d ← lift (readDn env.U dn)
    match lookup env.U st.heap 0 d with
    | .error .noSuchObject => .error (.ldap 49 .none)
    | .error e => .error (.py e)
    | .ok i => do
      let password ← lift (authBytes auth)
      let ok ← lift (Password.tryBind env.U env.sha1 env.passwordTextFirst (entryAt st.heap i) (.bytes password))
      if ok then
        return (some i, .result .bindResponse 0x41 (.int 0) (.bytes (dnOctets st.heap i)) (.bytes []) .none)
      else .error (.ldap 49 .none)

/-- The octets in a value; see the header. -/
def octetsOf : PyVal → Option Bytes
  | .bytes b => some b
  | _ => none

/-- The octets in the `value` of an object. -/
def octets? (o : Obj) : Option Bytes :=
  match o.value with
  | .ok v => octetsOf v
  | .error _ => none

/-- A filter whose evaluation raises. -/
def raisingFilter : Match.Filter := .approx (.bytes []) (.bytes [])

/-- pureldap.py:570-589: the pieces of a substring filter. -/
def pieces : List Obj → Option (List Match.Piece)
  | [] => some []
  | .oct .subInitial _ v :: r => (pieces r).map (.initial (.bytes v) :: ·)
  | .oct .subAny _ v :: r => (pieces r).map (.any (.bytes v) :: ·)
  | .oct .subFinal _ v :: r => (pieces r).map (.final (.bytes v) :: ·)
  | _ :: _ => none

/-- The two operands of an attribute value assertion. -/
def assertion (mk : PyStr → PyStr → Match.Filter) (desc val : Obj) : Match.Filter :=
  match octets? desc, octets? val with
  | some d, some v => mk (.bytes d) (.bytes v)
  | _, _ => raisingFilter

mutual
/-- A received filter object as `MatchMixin.match` (entryhelpers.py:150-244) sees it. -/
def toFilter : Obj → Match.Filter
  | .seq .fAnd _ fs => .and (toFilters fs)
  | .seq .fOr _ fs => .or (toFilters fs)
  | .not _ f => .not (toFilter f)
  | .oct .fPresent _ v => .present (.bytes v)
  | .ava .fEq _ d v => assertion .equality d v
  | .ava .fGe _ d v => assertion .greaterOrEqual d v
  | .ava .fLe _ d v => assertion .lessOrEqual d v
  | .ava .fApprox _ d v => assertion .approx d v
  | .substrings _ ty subs =>
    match octetsOf ty, pieces subs with
    | some t, some ps => .substrings (.bytes t) ps
    | _, _ => raisingFilter
  | .mra _ rule ty mv _ => .extensible (rule.map .bytes) (ty.map .bytes) (.bytes mv)
  | _ => raisingFilter
def toFilters : List Obj → List Match.Filter
  | [] => []
  | f :: fs => toFilter f :: toFilters fs
end

/-- ldapserver.py:209-257 `handle_LDAPCompareRequest`, after the controls and the DN. -/
def compareAt (env : Env) (h : Heap) (d : Dn.Dn) (ava : Obj) : Act Obj := do
  let i ← lift (lookup env.U h 0 d)
  match ava with
  | .ava _ _ desc val =>
    match tryMatch env.U h (assertion .equality desc val) i with
    | some true => return respond .compareResponse 0x4F 6 .none
    | some false => return respond .compareResponse 0x4F 5 .none
    | none => .error (.py .other)
  | _ => .error (.py .attributeError)

/-- ldapserver.py:209-257 `handle_LDAPCompareRequest`. -/
def handleCompare (env : Env) (luck : Luck) (h : Heap) (entry : PyVal) (ava : Obj)
    (controls : Option (List (PyVal × PyVal × PyVal))) : Act Obj := do
  checkControls controls
  let d ← lift (readDn env.U entry)
  match compareAt env h d ava with
  | .ok r => return r
  | .error f => return respond .compareResponse 0x4F (f.reportSearch luck).1 (f.reportSearch luck).2

/-! Search. -/

/-- Insert by the octets of the name. -/
def insertItem (x : PyStr × List PyStr) : Attrs → Attrs
  | [] => [x]
  | y :: l =>
    if PyStr.lexLe (x.1.toBytes.map UInt8.toNat) (y.1.toBytes.map UInt8.toNat) then x :: y :: l else y :: insertItem x l

/-- `l.sort(key=lambda x: to_bytes(x[0]))` -/
def sortItems : Attrs → Attrs
  | [] => []
  | x :: l => insertItem x (sortItems l)

/-- `vs.sort()`: text and octets cannot be compared.  The order of texts is that of their UTF-8 octets. -/
def sortValues (vs : List PyStr) : Py (List PyStr) :=
  if vs.all (fun v => match v with | .text _ => true | .bytes _ => false) ||
      vs.all (fun v => match v with | .text _ => false | .bytes _ => true) then .ok (Delta.sortBytes vs)
  else .error .typeError

/-- entry.py:37 `_object_class_keys` -/
def classKeys (env : Env) : List PyStr :=
  if env.classTextFirst then [.text "objectClass".toList, .bytes (ascii "objectClass")]
  else [.bytes (ascii "objectClass"), .text "objectClass".toList]

/-- entry.py:38 `_object_class_lower_keys`: whether the lower-cased name is in it. -/
def isClassKey (U : Unicode) (k : PyStr) : Bool :=
  k.lower U = .text "objectclass".toList || k.lower U = .bytes (ascii "objectclass")

/-- entry.py:111-117: the part of `items` after the object classes. -/
def otherItems (U : Unicode) : Attrs → Py Attrs
  | [] => .ok []
  | (k, vs) :: l =>
    if isClassKey U k then otherItems U l
    else do
      let vs ← sortValues vs
      let r ← otherItems U l
      return (k, vs) :: r

/-- entry.py:102-119 `items` -/
def items (env : Env) (e : Entry) : Py Attrs := do
  let r ← otherItems env.U (sortItems e.attrs)
  return ((classKeys env).filterMap fun k =>
    match e.attrs.find env.U k with
    | some (v :: vs) => some (k, Delta.sortBytes (v :: vs))
    | _ => none) ++ r

/-- ldapserver.py:264-266: the requested attributes that the entry has, with their values. -/
def requested (U : Unicode) (e : Entry) : List PyVal → Py (List (PyVal × List PyVal))
  | [] => .ok []
  | .bytes k :: ks => do
    let r ← e.get U (.bytes k)
    let rest ← requested U e ks
    match r with
    | some vs => return (.bytes k, vs.map fun v => .bytes v.toBytes) :: rest
    | none => return rest
  | _ :: ks => requested U e ks

/-- ldapserver.py:268: all attributes of the entry, as octets. -/
def allItems (env : Env) (e : Entry) : Py (List (PyVal × List PyVal)) := do
  let l ← items env e
  return l.map fun p => (PyVal.bytes p.1.toBytes, p.2.map fun v => PyVal.bytes v.toBytes)

/-- ldapserver.py:262-268: the attributes that are sent for an entry. -/
def resultAttrs (env : Env) (attributes : List PyVal) (e : Entry) : Py (List (PyVal × List PyVal)) :=
  if attributes ≠ [] ∧ PyVal.bytes (ascii "*") ∉ attributes then requested env.U e attributes else allItems env e

/-- ldapserver.py:261-274: what `_sendEntryToClient` sends for an entry. -/
def resultEntry (env : Env) (attributes : List PyVal) (e : Entry) : Py Obj := do
  let attrs ← resultAttrs env attributes e
  return .searchEntry 0x44 (.bytes (Utf8.encode e.dn.text)) attrs

/-- entryhelpers.py:297-299 `_tryMatch` with the callback `_sendEntryToClient`; `none` if it raises. -/
def sendIfMatch (env : Env) (h : Heap) (id : PyVal) (f : Match.Filter) (attributes : List PyVal) (i : Nat) : Option Bool :=
  match tryMatch env.U h f i with
  | none => none
  | some false => some false
  | some true =>
    match resultEntry env attributes (entryAt h i) with
    | .ok o => if encodes id o then some true else none
    | .error _ => none

/-- inmemory.py:33-34: the callback on each child; the nodes sent, and whether it raised. -/
def sendEach (accept : Nat → Option Bool) : List Nat → List Nat × Bool
  | [] => ([], false)
  | c :: cs =>
    match accept c with
    | none => ([], true)
    | some b => ((if b then [c] else []) ++ (sendEach accept cs).1, (sendEach accept cs).2)

/-- entryhelpers.py:275-291: the scope of a search request. -/
def scopeOf : PyVal → Option Scope
  | .int 0 => some .base
  | .int 1 => some .one
  | .int 2 => some .sub
  | .none => some .sub
  | _ => none

/-- entryhelpers.py:247-306 `search` with a callback: the nodes sent, and whether the call raised. -/
def searchNodes (h : Heap) (i : Nat) (scope : Scope) (accept : Nat → Option Bool) : List Nat × Bool :=
  match scope with
  | .base => sendEach accept [i]
  | .one => sendEach accept (((h[i]?).map fun n => n.children.map (·.2)).getD [])
  | .sub => walk h accept (h.length + 1) i

/-- The entry sent for a node. -/
def entryFor (env : Env) (h : Heap) (attributes : List PyVal) (i : Nat) : Obj :=
  match resultEntry env attributes (entryAt h i) with
  | .ok o => o
  | .error _ => .null .null 0

/-- ldapserver.py:308: `request.filter == LDAPFilter_present("objectClass")` -/
def isPresentClass (filter : Obj) : Py Bool := Equality.eq filter (.oct .fPresent 0x87 (ascii "objectClass"))

/-- ldapserver.py:305-309: whether the request asks for the root DSE. -/
def wantsRootDSE (base scope : PyVal) (filter : Obj) : Py Bool :=
  if base = .bytes [] ∧ scope = .int 0 then isPresentClass filter else .ok false

/-- ldapserver.py:186-205 `getRootDSE`: the entry. -/
def rootDSE (h : Heap) : Obj :=
  .searchEntry 0x44 (.bytes [])
    [(.bytes (ascii "supportedLDAPVersion"), [.bytes (ascii "3")]),
     (.bytes (ascii "namingContexts"), [.bytes (dnOctets h 0)]),
     (.bytes (ascii "supportedExtension"), [.bytes (ascii "1.3.6.1.4.1.4203.1.11.1")])]

def searchDone (code : Int) (m : Message) : Obj := respond .searchResultDone 0x45 code m

/-- ldapserver.py:259-295: the search once the base DN is known: the entries sent and the response. -/
def searchAt (env : Env) (luck : Luck) (h : Heap) (id : PyVal) (d : Dn.Dn) (scope : PyVal) (filter : Obj)
    (attributes : List PyVal) : List Obj × Obj :=
  match lookup env.U h 0 d with
  | .error e => ([], searchDone ((Fault.py e).reportSearch luck).1 ((Fault.py e).reportSearch luck).2)
  | .ok i =>
    match scopeOf scope with
    | none => ([], searchDone 2 .none)
    | some s =>
      match searchNodes h i s (sendIfMatch env h id (toFilter filter) attributes) with
      | (l, true) => (l.map (entryFor env h attributes), searchDone 80 (.text (luck.text .other)))
      | (l, false) => (l.map (entryFor env h attributes), searchDone 0 .none)

/-- ldapserver.py:299-315 `handle_LDAPSearchRequest` -/
def handleSearch (env : Env) (luck : Luck) (h : Heap) (id : PyVal) (base scope : PyVal) (filter : Obj)
    (attributes : List PyVal) (controls : Option (List (PyVal × PyVal × PyVal))) : Act (List Obj × Obj) := do
  checkControls controls
  let dse ← lift (wantsRootDSE base scope filter)
  if dse then
    if encodes id (rootDSE h) then return ([rootDSE h], searchDone 0 .none) else .error (.py .typeError)
  else do
    let d ← lift (readDn env.U base)
    return searchAt env luck h id d scope filter attributes

/-! Changes. -/

/-- The exceptions of inmemory.py:71-88.  Line 75 raises `LDAPNotAllowedOnNonLeaf(self.dn)`: the message is the
DistinguishedName object itself; line 73 gives none. -/
def deleteFault : PyErr → Fault
  | .notAllowedOnNonLeaf => .ldap 66 .object
  | .cannotRemoveRoot => .ldap 64 .none
  | e => .py e

/-- ldapserver.py:319-338 `handle_LDAPDelRequest` -/
def handleDelete (env : Env) (h : Heap) (dn : PyVal) (controls : Option (List (PyVal × PyVal × PyVal))) : Act (Heap × Obj) := do
  checkControls controls
  let d ← lift (readDn env.U dn)
  let i ← lift (lookup env.U h 0 d)
  match Tree.delete h i with
  | .ok r => return (r.1, respond .delResponse 0x4B 0 .none)
  | .error e => .error (deleteFault e)

/-- `[x.value for x in vals]` -/
def valuesOf : List Obj → Py (List PyStr)
  | [] => .ok []
  | o :: os =>
    match octets? o with
    | none => .error .typeError
    | some b => do
      let r ← valuesOf os
      return .bytes b :: r

/-- `name, vals = item` and the values in it. -/
def attributeOf (o : Obj) : Py (PyStr × List PyStr) := do
  match ← o.iter with
  | [name, vals] =>
    match octets? name with
    | none => .error .typeError
    | some k => do
      let l ← vals.iter
      let vs ← valuesOf l
      return (.bytes k, vs)
  | _ => .error .valueError

/-- `attributes.setdefault(name, set()); attributes[name].update(vals)` on a dict. -/
def collectExact (p : PyStr × List PyStr) : List (PyStr × List PyStr) → List (PyStr × List PyStr)
  | [] => [(p.1, mkSet p.2)]
  | (k, vs) :: d => if k = p.1 then (k, AttributeSet.update vs p.2) :: d else (k, vs) :: collectExact p d

/-- ldapserver.py:345-348 -/
def addAttributes (o : Obj) : Py (List (PyStr × List PyStr)) := do
  let l ← o.iter
  let ps ← mapM' attributeOf l
  return ps.foldl (fun d p => collectExact p d) []

/-- ldapserver.py:340-363 `handle_LDAPAddRequest` -/
def handleAdd (env : Env) (h : Heap) (entry : PyVal) (attributes : Obj)
    (controls : Option (List (PyVal × PyVal × PyVal))) : Act (Heap × Obj) := do
  checkControls controls
  let attrs ← lift (addAttributes attributes)
  let d ← lift (readDn env.U entry)
  match d with
  | [] => .error (.py .indexError)
  | r :: parent => do
    let p ← lift (lookup env.U h 0 parent)
    let rdn ← lift (Rdn.parse env.U r.text)
    let x ← lift (Tree.addChild env.U h p rdn attrs)
    return (x.1, respond .addResponse 0x49 0 .none)

/-- ldapserver.py:371-375: `deleteoldrdn`. -/
def checkDeleteOld (del : PyVal) : Act Unit :=
  if del.truthy then .ok () else .error (.ldap 53 (.text (ascii "Cannot handle preserving old RDN yet.")))

/-- ldapserver.py:376-380: the new parent. -/
def superior (U : Unicode) (d : Dn.Dn) : PyVal → Py Dn.Dn
  | .none => .ok (Dn.up d)
  | v => readDn U v

/-- ldapserver.py:368-385: the entry to be moved and its new DN. -/
def modifyDNTarget (env : Env) (h : Heap) (entry newrdn del sup : PyVal)
    (controls : Option (List (PyVal × PyVal × PyVal))) : Act (Nat × Dn.Dn) := do
  checkControls controls
  let d ← lift (readDn env.U entry)
  let r ← lift (readRdn env.U newrdn)
  checkDeleteOld del
  let s ← lift (superior env.U d sup)
  let i ← lift (lookup env.U h 0 d)
  return (i, r :: s)

/-- ldapserver.py:367-396 `handle_LDAPModifyDNRequest`: the heap afterwards, and the exception or response. -/
def handleModifyDN (env : Env) (h : Heap) (entry newrdn del sup : PyVal)
    (controls : Option (List (PyVal × PyVal × PyVal))) : Heap × Act Obj :=
  match modifyDNTarget env h entry newrdn del sup controls with
  | .error f => (h, .error f)
  | .ok (i, newDN) =>
    match Tree.move env.U h i newDN with
    | (h', none) => (h', .ok (respond .modifyDNResponse 0x4D 0 .none))
    | (h', some e) => (h', .error (.py e))

/-- delta.py:135-139 `_getClassFromOp` -/
def modKind : PyVal → Option ModKind
  | .int 0 => some .add
  | .int 1 => some .delete
  | .int 2 => some .replace
  | _ => none

/-- delta.py:148-163: one modification of a modify request. -/
def modOf (o : Obj) : Py Mod := do
  match ← o.iter with
  | [op, mods] => do
    let v ← op.value
    match modKind v with
    | none => .error .other
    | some k => do
      let p ← attributeOf mods
      return ⟨k, p.1, mkSet p.2⟩
  | _ => .error .valueError

/-- ldapserver.py:401-405, delta.py:142-164, 183-184: the entry to be modified and the modifications. -/
def modifyTarget (env : Env) (h : Heap) (object : PyVal) (mods : List Obj)
    (controls : Option (List (PyVal × PyVal × PyVal))) : Act (Nat × List Mod) := do
  checkControls controls
  let ms ← lift (mapM' modOf mods)
  let d ← lift (readDn env.U object)
  let i ← lift (lookup env.U h 0 d)
  return (i, ms)

/-- ldapserver.py:400-414 `handle_LDAPModifyRequest`: the heap afterwards, and the exception or response. -/
def handleModify (env : Env) (h : Heap) (object : PyVal) (mods : List Obj)
    (controls : Option (List (PyVal × PyVal × PyVal))) : Heap × Act Obj :=
  match modifyTarget env h object mods controls with
  | .error f => (h, .error f)
  | .ok (i, ms) =>
    match h[i]? with
    | none => (h, .error (.py .other))
    | some n =>
      match Delta.patchAll env.U ms n.entry with
      | (e, none) => (h.set i { n with entry := e }, .ok (respond .modifyResponse 0x47 0 .none))
      | (e, some x) => (h.set i { n with entry := e }, .error (.py x))

/-! Extended requests. -/

/-- pureldap.py:1568 `LDAPPasswordModifyRequest.oid` -/
def passwordModifyOid : PyVal := .bytes (ascii "1.3.6.1.4.1.4203.1.11.1")

/-- ldapserver.py:527-531: the decoder for the value of a password modify request. -/
def passwordModifyCtx : Ctx := .inh .ber (.inh .passwordModify (.base .ber))

/-- ldapserver.py:458-484: the three optional parts of a password modify request. -/
def passwordParts : List Obj → Option Bytes × Option Bytes × Option Bytes → Option (Option Bytes × Option Bytes × Option Bytes)
  | [], p => some p
  | .oct .pmUser _ v :: r, (u, o, n) => if u.isSome then none else passwordParts r (some v, o, n)
  | .oct .pmOld _ v :: r, (u, o, n) => if o.isSome then none else passwordParts r (u, some v, n)
  | .oct .pmNew _ v :: r, (u, o, n) => if n.isSome then none else passwordParts r (u, o, some v)
  | _ :: _, _ => none

/-- ldapserver.py:448-521 `extendedRequest_LDAPPasswordModifyRequest`: the new heap. -/
def passwordModify (env : Env) (luck : Luck) (st : State) (data : Obj) : Act Heap :=
  match data.data? with
  | none => .error (.ldap 2 (.text (ascii "Extended request PasswordModify expected a BERSequence.")))
  | some l =>
    match passwordParts l (none, none, none) with
    | none => .error (.ldap 2 (.text (ascii "Extended request PasswordModify received unexpected item.")))
    | some (user, old, new) =>
      match st.bound with
      | none => .error (.ldap 8 .none)
      | some i =>
        if user.isSome ∧ user ≠ some (dnOctets st.heap i) then .error (.ldap 50 .none)
        else match old, new with
          | none, some pw =>
            match st.heap[i]? with
            | none => .error (.py .other)
            | some n =>
              match Password.setPassword env.U env.sha1 env.passwordTextFirst n.entry pw luck.salt with
              | .ok e => .ok (st.heap.set i { n with entry := e })
              | .error x => .error (.py x)
          | _, _ => .error (.ldap 1 (.text (ascii "Password does not support this case.")))

/-- ldapserver.py:418-446 `handle_LDAPExtendedRequest` -/
def handleExtended (env : Env) (luck : Luck) (st : State) (name value : PyVal)
    (controls : Option (List (PyVal × PyVal × PyVal))) : Act (Heap × Obj) := do
  checkControls controls
  if name = passwordModifyOid then
    match value with
    | .bytes v => do
      let l ← lift (berDecodeMultiple v passwordModifyCtx)
      match l with
      | [data] =>
        match passwordModify env luck st data with
        | .ok h => return (h, extRespond 0 .none passwordModifyOid)
        | .error (.ldap c m) => return (st.heap, extRespond c m name)
        | .error f => .error f
      | _ => .error (.py .typeError)
    | _ => .error (.py .typeError)
  else
    match name with
    | .bytes b => .error (.ldap 2 (.text (ascii "Unknown extended request: " ++ b)))
    | _ => .error (.py .typeError)

/-! ### `handle` -/

/-- What a handler did: the state afterwards, the entries it sent, and how it ended; `none` is `return None`. -/
structure Done where
  state : State
  sent : List Obj
  result : Act (Option Obj)

/-- Wrap a handler that changes the heap only if it succeeds. -/
def onHeap (st : State) : Act (Heap × Obj) → Done
  | .ok (h, r) => ⟨{ st with heap := h }, [], .ok (some r)⟩
  | .error f => ⟨st, [], .error f⟩

/-- ldapserver.py:113-122: call `handle_<class of the request>`; 72-79 `handleUnknown` for the others. -/
def call (env : Env) (luck : Luck) (st : State) (id : PyVal) (request : Obj)
    (controls : Option (List (PyVal × PyVal × PyVal))) : Done :=
  match request with
  | .bind _ version dn auth =>
    match handleBind env st version dn auth controls with
    | .ok (b, r) => ⟨{ st with bound := b }, [], .ok (some r)⟩
    | .error f => ⟨st, [], .error f⟩
  | .null .unbindRequest _ => ⟨st, [], .ok none⟩
  | .compare _ entry ava =>
    match handleCompare env luck st.heap entry ava controls with
    | .ok r => ⟨st, [], .ok (some r)⟩
    | .error f => ⟨st, [], .error f⟩
  | .searchRequest _ base scope _ _ _ _ filter attributes =>
    match handleSearch env luck st.heap id base scope filter attributes controls with
    | .ok (es, r) => ⟨st, es, .ok (some r)⟩
    | .error f => ⟨st, [], .error f⟩
  | .oct .delRequest _ v => onHeap st (handleDelete env st.heap (.bytes v) controls)
  | .addRequest _ entry attributes => onHeap st (handleAdd env st.heap entry attributes controls)
  | .modifyDN _ entry newrdn del sup =>
    match handleModifyDN env st.heap entry newrdn del sup controls with
    | (h, .ok r) => ⟨{ st with heap := h }, [], .ok (some r)⟩
    | (h, .error f) => ⟨{ st with heap := h }, [], .error f⟩
  | .modifyRequest _ object mods =>
    match handleModify env st.heap object mods controls with
    | (h, .ok r) => ⟨{ st with heap := h }, [], .ok (some r)⟩
    | (h, .error f) => ⟨{ st with heap := h }, [], .error f⟩
  | .extRequest _ name value => onHeap st (handleExtended env luck st name value controls)
  | _ => ⟨st, [], .ok (some (extRespond 2 (.text (ascii "Unknown request")) noticeName))⟩

/-- The messages written for a request, in order, with their message ids; the state afterwards. -/
structure Served where
  state : State
  sent : List (PyVal × Obj)
  deriving Inhabited

/-- ldapserver.py:84-86 `_cbHandle` at the end: a response that cannot be encoded is not sent. -/
def final (id : PyVal) (r : Obj) : List (PyVal × Obj) := if encodes id r then [(id, r)] else []

/-- ldapserver.py:106-127 `handle` of `LDAPServer` for one received message; `none` for the AssertionError of line 107 and
for objects that are not messages. -/
def serve (env : Env) (luck : Luck) (st : State) : Obj → Option Served
  | .message id request controls =>
    if isRequest request then
      if id = .int 0 then some ⟨st, []⟩
      else
        let d := call env luck st id request controls
        some ⟨d.state, d.sent.map (fun o => (id, o)) ++
          match d.result with
          | .ok none => []
          | .ok (some r) => final id r
          | .error f => final id (failWith request (f.report luck).1 (f.report luck).2)⟩
    else none
  | _ => none

/-- One connection: the messages received one after the other, each with the chance events of its handling.  A message
that is not a request ends the connection (the exception leaves `dataReceived`). -/
def serveAll (env : Env) : State → List (Luck × Obj) → State × List (PyVal × Obj)
  | st, [] => (st, [])
  | st, (luck, msg) :: r =>
    match serve env luck st msg with
    | none => (st, [])
    | some s => ((serveAll env s.state r).1, s.sent ++ (serveAll env s.state r).2)

end Verif.Server
