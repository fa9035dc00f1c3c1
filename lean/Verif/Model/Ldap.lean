import Verif.Model.Ber
/-
Model of the object layer of /repo/ldaptor/protocols/pureber.py and of /repo/ldaptor/protocols/pureldap.py:
which Python class a tag is decoded to in which decoding context, what each class's `fromBER` builds and
what its `toWire` emits.

Python objects are dynamically typed; so is the model: `Obj` is the type of all BER/LDAP objects and
`PyVal` the type of the values found in their attributes.  Simplifications:
* text and bytes attributes are both `PyVal.bytes` (`to_bytes` encodes text as UTF-8 before it is written);
* reading `.value` of an `LDAPFilter_not` or `LDAPMessage` (an object, not a scalar) is an error in the model;
* Python's recursion limit (about 1000 frames) is not modelled: nesting is unbounded;
* the printed warning for unknown tags (pureber.py:381) is not modelled.
-/
namespace Verif.Ldap
open Verif.Ber

/-- The Python classes that occur in the `Identities` tables of the decoding contexts. -/
inductive Cls where
  -- pureber.py:157-316
  | boolean | integer | octetString | null | enumerated | sequence | set
  -- pureldap.py
  | ldapString | message
  | bindRequest | bindResponse | saslCreds | unbindRequest
  | searchRequest | searchResultEntry | searchResultDone | searchResultReference | referral
  | modifyRequest | modifyResponse | addRequest | addResponse | delRequest | delResponse
  | extendedRequest | extendedResponse | modifyDNRequest | modifyDNResponse
  | abandonRequest | compareRequest | compareResponse
  | controls | control | newSuperior | ava
  | fAnd | fOr | fNot | fEq | fSubstrings | fGe | fLe | fPresent | fApprox | fExt
  | subInitial | subAny | subFinal
  | mraRule | mraType | mraValue | mraDn
  | responseName | response
  | pmUser | pmOld | pmNew
  deriving DecidableEq, Repr, Inhabited

/-- A Python attribute value: an integer, a byte string, or `None`. -/
inductive PyVal where
  | int (i : Int)
  | bytes (b : Bytes)
  | none
  deriving DecidableEq, Repr, Inhabited

/-- `LDAPBindRequest.auth` together with the `sasl` flag (pureldap.py:178-196). -/
inductive Auth where
  | simple (password : PyVal)
  | sasl (mechanism credentials : PyVal)
  deriving DecidableEq, Repr, Inhabited

/-- Instances of the classes of pureber.py and pureldap.py. -/
inductive Obj where
  /-- `BERInteger` and subclasses -/
  | int (c : Cls) (tag : UInt8) (v : Int)
  /-- `BEROctetString` and subclasses -/
  | oct (c : Cls) (tag : UInt8) (v : Bytes)
  /-- `BERNull` and subclasses -/
  | null (c : Cls) (tag : UInt8)
  /-- `BERBoolean` and subclasses; the constructor has already mapped truthy values to 255 -/
  | bool (c : Cls) (tag : UInt8) (v : Int)
  /-- `BERSequence` and the subclasses that keep their elements in `.data` (sets, controls, and/or filters) -/
  | seq (c : Cls) (tag : UInt8) (data : List Obj)
  | not (tag : UInt8) (v : Obj)
  /-- `LDAPAttributeValueAssertion` and subclasses (equality, >=, <=, ~= filters) -/
  | ava (c : Cls) (tag : UInt8) (desc val : Obj)
  | substrings (tag : UInt8) (type : PyVal) (subs : List Obj)
  /-- `LDAPMatchingRuleAssertion` / `LDAPFilter_extensibleMatch` -/
  | mra (tag : UInt8) (rule type : Option Bytes) (mv : Bytes) (dn : Option Int)
  | message (id : PyVal) (value : Obj) (controls : Option (List (PyVal × PyVal × PyVal)))
  | control (tag : UInt8) (ctype crit cval : PyVal)
  | bind (tag : UInt8) (version dn : PyVal) (auth : Auth)
  /-- `LDAPResult` and subclasses except `LDAPExtendedResponse` -/
  | result (c : Cls) (tag : UInt8) (code matchedDN errorMessage creds : PyVal)
  | extResponse (tag : UInt8) (code matchedDN errorMessage name response : PyVal)
  | searchRequest (tag : UInt8) (base scope deref sizeLimit timeLimit typesOnly : PyVal) (filter : Obj)
      (attributes : List PyVal)
  | searchEntry (tag : UInt8) (name : PyVal) (attributes : List (PyVal × List PyVal))
  | searchReference (tag : UInt8) (uris : List Obj)
  | modifyRequest (tag : UInt8) (object : PyVal) (modification : List Obj)
  | addRequest (tag : UInt8) (entry : PyVal) (attributes : Obj)
  | modifyDN (tag : UInt8) (entry newrdn deleteoldrdn newSuperior : PyVal)
  | compare (tag : UInt8) (entry : PyVal) (ava : Obj)
  | extRequest (tag : UInt8) (name value : PyVal)
  deriving Inhabited

/-! ### Decoding contexts -/

/-- The `BERDecoderContext` subclasses (pureber.py:319-344 and pureldap.py). -/
inductive CtxKind where
  | ber | ldap | topLevel | ldapMessage | controls | bindRequest | bindResponse | searchReference
  | filter | substrings | mra | modifyDN | compare | extRequest | extResponse | passwordModify
  deriving DecidableEq, Repr

/-- A `BERDecoderContext` instance; the constructors say which of the `fallback` / `inherit` arguments were given
(pureber.py:330-332). -/
inductive Ctx where
  | base (k : CtxKind)
  | fb (k : CtxKind) (fallback : Ctx)
  | inh (k : CtxKind) (inherit : Ctx)
  | both (k : CtxKind) (fallback inherit : Ctx)
  deriving DecidableEq, Repr

/-- The `Identities` class attribute of each context. -/
def identities (k : CtxKind) (tag : UInt8) : Option Cls :=
  match k with
  | .ber => -- pureber.py:320-328
    if tag = 0x01 then some .boolean else if tag = 0x02 then some .integer
    else if tag = 0x04 then some .octetString else if tag = 0x05 then some .null
    else if tag = 0x0A then some .enumerated else if tag = 0x10 then some .sequence
    else if tag = 0x11 then some .set else none
  | .ldap => -- pureldap.py:1770-1793
    if tag = 0x41 then some .bindResponse else if tag = 0x40 then some .bindRequest
    else if tag = 0x42 then some .unbindRequest else if tag = 0x43 then some .searchRequest
    else if tag = 0x44 then some .searchResultEntry else if tag = 0x45 then some .searchResultDone
    else if tag = 0x53 then some .searchResultReference else if tag = 0x83 then some .referral
    else if tag = 0x46 then some .modifyRequest else if tag = 0x47 then some .modifyResponse
    else if tag = 0x48 then some .addRequest else if tag = 0x49 then some .addResponse
    else if tag = 0x4A then some .delRequest else if tag = 0x4B then some .delResponse
    else if tag = 0x57 then some .extendedRequest else if tag = 0x58 then some .extendedResponse
    else if tag = 0x4C then some .modifyDNRequest else if tag = 0x4D then some .modifyDNResponse
    else if tag = 0x50 then some .abandonRequest else if tag = 0x4E then some .compareRequest
    else if tag = 0x4F then some .compareResponse else none
  | .topLevel => -- pureldap.py:1139-1142
    if tag = 0x10 then some .message else none
  | .ldapMessage => -- pureldap.py:1132-1136
    if tag = 0x80 then some .controls else if tag = 0x53 then some .searchResultReference else none
  | .controls => -- pureldap.py:1126-1129
    if tag = 0x10 then some .control else none
  | .bindRequest => -- pureldap.py:146-150
    if tag = 0x80 then some .octetString else if tag = 0x83 then some .sequence else none
  | .bindResponse => -- pureldap.py:367-370
    if tag = 0x87 then some .saslCreds else none
  | .searchReference => -- pureldap.py:238-241
    if tag = 0x04 then some .ldapString else none
  | .filter => -- pureldap.py:868-880
    if tag = 0x80 then some .fAnd else if tag = 0x81 then some .fOr else if tag = 0x82 then some .fNot
    else if tag = 0x83 then some .fEq else if tag = 0x84 then some .fSubstrings
    else if tag = 0x85 then some .fGe else if tag = 0x86 then some .fLe else if tag = 0x87 then some .fPresent
    else if tag = 0x88 then some .fApprox else if tag = 0x89 then some .fExt else none
  | .substrings => -- pureldap.py:602-607
    if tag = 0x80 then some .subInitial else if tag = 0x81 then some .subAny
    else if tag = 0x82 then some .subFinal else none
  | .mra => -- pureldap.py:749-755
    if tag = 0x81 then some .mraRule else if tag = 0x82 then some .mraType
    else if tag = 0x83 then some .mraValue else if tag = 0x84 then some .mraDn else none
  | .modifyDN => -- pureldap.py:1325-1328
    if tag = 0x80 then some .newSuperior else none
  | .compare => -- pureldap.py:1408-1409
    if tag = 0x10 then some .ava else none
  | .extRequest => -- pureldap.py:1493-1497
    if tag = 0x80 then some .octetString else if tag = 0x81 then some .octetString else none
  | .extResponse => -- pureldap.py:1621-1625
    if tag = 0x8A then some .responseName else if tag = 0x8B then some .response else none
  | .passwordModify => -- pureldap.py:1560-1565
    if tag = 0x80 then some .pmUser else if tag = 0x81 then some .pmOld
    else if tag = 0x82 then some .pmNew else none

/-- pureber.py:334-341 `lookup_id`. -/
def Ctx.lookup : Ctx → UInt8 → Option Cls
  | .base k, t => identities k t
  | .fb k f, t => match identities k t with | some c => some c | none => f.lookup t
  | .inh k _, t => identities k t
  | .both k f _, t => match identities k t with | some c => some c | none => f.lookup t

/-- pureber.py:343-344 `inherit`. -/
def Ctx.inherit : Ctx → Ctx
  | .base k => .base k
  | .fb k f => .fb k f
  | .inh _ i => i
  | .both _ _ i => i

/-- `LDAPBERDecoderContext(fallback=BERDecoderContext())`, ldapserver.py:17-26 / ldapclient.py:29-38. -/
def ldapCtx : Ctx := .fb .ldap (.base .ber)

/-- The decoding context of a connection (ldapserver.py:17-26, ldapclient.py:29-38). -/
def topCtx : Ctx := .inh .topLevel (.both .ldapMessage ldapCtx ldapCtx)

/-! ### Encoding: `toWire` -/

/-- `bytes((identification,)) + int2berlen(len(content)) + content`, the pattern of all `toWire` methods. -/
def tlv (ident : UInt8) (content : Bytes) : Py Bytes := do
  let l ← int2berlen content.length
  return ident :: (l ++ content)

/-- `STRUCTURED | tag` (pureber.py:138-141). -/
def structured (tag : UInt8) : UInt8 := tag ||| 0x20

/-- `str(value).encode("utf-8")` for an integer (_encoder.py:18-19). -/
def decimal (i : Int) : Bytes := (toString i).toList.map (fun c => UInt8.ofNat c.toNat)

/-- _encoder.py:8-22 `to_bytes` on a scalar; `bytes(None)` is a `TypeError`. -/
def toBytes : PyVal → Py Bytes
  | .int i => .ok (decimal i)
  | .bytes b => .ok b
  | .none => .error .typeError

/-- `BERInteger(value, tag).toWire()` / `BEREnumerated` (pureber.py:157-181). -/
def encInt (tag : UInt8) : PyVal → Py Bytes
  | .int i => tlv tag (int2ber i)
  | .bytes _ => .error .typeError
  | .none => .error .assertionError

/-- `BEROctetString(value, tag).toWire()` and subclasses (pureber.py:194-213). -/
def encOct (tag : UInt8) : PyVal → Py Bytes
  | .none => .error .assertionError
  | v => do tlv tag (← toBytes v)

/-- `BERBoolean(value, tag).toWire()` (pureber.py:257-272): truthy values become 0xFF; `b""` fails the assertion. -/
def encBool (tag : UInt8) : PyVal → Py Bytes
  | .int i => do
    let l ← int2berlen 1
    return tag :: (l ++ [if i = 0 then 0x00 else 0xFF])
  | .bytes b => if b = [] then .error .assertionError else do
    let l ← int2berlen 1
    return tag :: (l ++ [0xFF])
  | .none => .error .assertionError

/-- `b"".join(...)` of already encoded parts, stopping at the first exception. -/
def joinM : List (Py Bytes) → Py Bytes
  | [] => .ok []
  | x :: xs => do
    let a ← x
    let b ← joinM xs
    return a ++ b

/-- Python truthiness of an attribute value. -/
def PyVal.truthy : PyVal → Bool
  | .int i => i ≠ 0
  | .bytes b => b ≠ []
  | .none => false

/-- `if v is not None: l.append(...)` -/
def encOpt (enc : PyVal → Py Bytes) (v : PyVal) : Py Bytes := if v = .none then .ok [] else enc v

/-- `if v: l.append(...)` -/
def encTruthy (enc : PyVal → Py Bytes) (v : PyVal) : Py Bytes := if v.truthy then enc v else .ok []

/-- `LDAPControl(*a).toWire()` (pureldap.py:1108-1123). -/
def encControl (tag : UInt8) (ctype crit cval : PyVal) : Py Bytes := do
  let a ← encOct 0x04 ctype
  let b ← encOpt (encBool 0x01) crit
  let c ← encOpt (encOct 0x04) cval
  tlv (structured tag) (a ++ (b ++ c))

/-- `LDAPControls(value=[LDAPControl(*a) for a in self.controls])` if there are controls (pureldap.py:113-117). -/
def encControls : Option (List (PyVal × PyVal × PyVal)) → Py Bytes
  | none => .ok []
  | some cs => do tlv (structured 0x80) (← joinM (cs.map fun c => encControl 0x10 c.1 c.2.1 c.2.2))

/-- The authentication part of a bind request (pureldap.py:199-220). -/
def encAuth : Auth → Py Bytes
  | .simple p => encOct 0x80 p
  | .sasl m cr => do
    let m' ← encOct 0x04 m
    let c' ← encTruthy (encOct 0x04) cr
    tlv (structured 0x83) (m' ++ c')

/-- An optional octet string part of a matching-rule assertion (pureldap.py:833-840). -/
def encOptBytes (tag : UInt8) : Option Bytes → Py Bytes
  | some b => encOct tag (.bytes b)
  | none => .ok []

/-- The optional boolean part of a matching-rule assertion (pureldap.py:833-840). -/
def encOptBool (tag : UInt8) : Option Int → Py Bytes
  | some i => encBool tag (.int i)
  | none => .ok []

/-- One attribute of a search result entry (pureldap.py:1041-1050). -/
def encAttr (kv : PyVal × List PyVal) : Py Bytes := do
  let k ← encOct 0x04 kv.1
  let s ← tlv (structured 0x11) (← joinM (kv.2.map (encOct 0x04)))
  tlv (structured 0x10) (k ++ s)

mutual
/-- The `toWire` method of each class. -/
def toWire : Obj → Py Bytes
  | .int _ tag v => encInt tag (.int v)                              -- pureber.py:176-178
  | .oct _ tag v => encOct tag (.bytes v)                            -- pureber.py:208-211
  | .null _ tag => .ok [tag, 0]                                      -- pureber.py:237-238
  | .bool _ tag v =>                                                 -- pureber.py:270-272
    if v = 0 ∨ v = 255 then encBool tag (.int v) else .error .assertionError
  | .seq _ tag data => do tlv (structured tag) (← toWireList data)   -- pureber.py:294-296
  | .not tag v => do tlv (structured tag) (← toWire v)               -- pureldap.py:560-562
  | .ava _ tag d v => do                                             -- pureldap.py:470-473
    let a ← toWire d
    let b ← toWire v
    tlv (structured tag) (a ++ b)
  | .substrings tag ty subs => do                                    -- pureldap.py:631-634
    let a ← encOct 0x04 ty
    let b ← tlv (structured 0x10) (← toWireList subs)
    tlv (structured tag) (a ++ b)
  | .mra tag rule ty mv dn => do                                     -- pureldap.py:833-840
    let a ← encOptBytes 0x81 rule
    let b ← encOptBytes 0x82 ty
    let c ← encOct 0x83 (.bytes mv)
    let d ← encOptBool 0x84 dn
    tlv (structured tag) (a ++ (b ++ (c ++ d)))
  | .message id value controls => do                                 -- pureldap.py:111-118
    let a ← encInt 0x02 id
    let b ← toWire value
    let c ← encControls controls
    tlv (structured 0x10) (a ++ (b ++ c))
  | .control tag ct cr cv => encControl tag ct cr cv                 -- pureldap.py:1117-1123
  | .bind tag version dn auth => do                                  -- pureldap.py:198-220
    let a ← encInt 0x02 version
    let b ← encOct 0x04 dn
    let c ← encAuth auth
    tlv (structured tag) (a ++ (b ++ c))
  | .result _ tag code mdn msg creds => do                           -- pureldap.py:318-338
    let a ← encInt 0x0A code
    let b ← encOct 0x04 mdn
    let c ← encOct 0x04 msg
    let d ← encTruthy (encOct 0x87) creds
    tlv (structured tag) (a ++ (b ++ (c ++ d)))
  | .extResponse tag code mdn msg name resp => do                    -- pureldap.py:1691-1703
    let a ← encInt 0x0A code
    let b ← encOct 0x04 mdn
    let c ← encOct 0x04 msg
    let d ← encOpt (encOct 0x8A) name
    let e ← encOpt (encOct 0x8B) resp
    tlv (structured tag) (a ++ (b ++ (c ++ (d ++ e))))
  | .searchRequest tag base scope deref sl tl to_ filter attrs => do -- pureldap.py:962-975
    let a ← encOct 0x04 base
    let b ← encInt 0x0A scope
    let c ← encInt 0x0A deref
    let d ← encInt 0x02 sl
    let e ← encInt 0x02 tl
    let f ← encBool 0x01 to_
    let g ← toWire filter
    let h ← tlv (structured 0x10) (← joinM (attrs.map (encOct 0x04)))
    tlv (structured tag) (a ++ (b ++ (c ++ (d ++ (e ++ (f ++ (g ++ h)))))))
  | .searchEntry tag name attrs => do                                -- pureldap.py:1038-1055
    let a ← encOct 0x04 name
    let b ← tlv (structured 0x10) (← joinM (attrs.map encAttr))
    tlv (structured tag) (a ++ b)
  | .searchReference tag uris => do tlv (structured tag) (← toWireList uris) -- pureldap.py:262-263
  | .modifyRequest tag object mods => do                             -- pureldap.py:1202-1206
    let a ← encOct 0x04 object
    let b ← tlv (structured 0x10) (← toWireList mods)
    tlv (structured tag) (a ++ b)
  | .addRequest tag entry attrs => do                                -- pureldap.py:1261-1268
    let a ← encOct 0x04 entry
    let b ← toWireAttrs attrs
    tlv (structured tag) (a ++ b)
  | .modifyDN tag entry newrdn del sup => do                         -- pureldap.py:1381-1389
    let a ← encOct 0x04 entry
    let b ← encOct 0x04 newrdn
    let c ← encBool 0x01 del
    let d ← encOpt (encOct 0x80) sup
    tlv (structured tag) (a ++ (b ++ (c ++ d)))
  | .compare tag entry ava => do                                     -- pureldap.py:1437-1439
    let a ← encOct 0x04 entry
    let b ← toWire ava
    tlv (structured tag) (a ++ b)
  | .extRequest tag name value => do                                 -- pureldap.py:1530-1535
    let a ← encOct 0x80 name
    let b ← encOpt (encOct 0x81) value
    tlv (structured tag) (a ++ b)

/-- `b"".join(to_bytes(x) for x in data)` (pureber.py:295). -/
def toWireList : List Obj → Py Bytes
  | [] => .ok []
  | x :: xs => do
    let a ← toWire x
    let b ← toWireList xs
    return a ++ b

/-- `BERSequence(map(BERSequence, attributes)).toWire()` (pureldap.py:1265).  Message-like subclasses of
`BERSequence` have an empty element list; other objects cannot be iterated. -/
def toWireAttrs : Obj → Py Bytes
  | .seq _ _ items => do tlv (structured 0x10) (← toWireSeqs items)
  | .int .. | .oct .. | .null .. | .bool .. | .not .. => .error .typeError
  | _ => tlv (structured 0x10) []

/-- `BERSequence(x).toWire()` for an object `x`: its elements re-wrapped as a plain sequence. -/
def toWireSeq : Obj → Py Bytes
  | .seq _ _ items => do tlv (structured 0x10) (← toWireList items)
  | .int .. | .oct .. | .null .. | .bool .. | .not .. => .error .typeError
  | _ => tlv (structured 0x10) []

/-- `b"".join(BERSequence(x).toWire() for x in items)` -/
def toWireSeqs : List Obj → Py Bytes
  | [] => .ok []
  | x :: xs => do
    let a ← toWireSeq x
    let b ← toWireSeqs xs
    return a ++ b
end

/-! ### Decoding: `fromBER` -/

/-- `obj.value`; attribute error for classes without that attribute. -/
def Obj.value : Obj → Py PyVal
  | .int _ _ v => .ok (.int v)
  | .oct _ _ v => .ok (.bytes v)
  | .bool _ _ v => .ok (.int v)
  | .not .. | .message .. => .error .typeError -- simplification, see the header
  | _ => .error .attributeError

/-- The element list of a `BERSequence` instance (`obj.data`, also what iterating it yields); message-like
subclasses are constructed with an empty list.  `none` for classes that are not sequences. -/
def Obj.data? : Obj → Option (List Obj)
  | .seq _ _ d => some d
  | .int .. | .oct .. | .null .. | .bool .. | .not .. => none
  | _ => some []

/-- `for x in obj` -/
def Obj.iter (o : Obj) : Py (List Obj) :=
  match o.data? with
  | some d => .ok d
  | none => .error .typeError

/-- `l[i]` -/
def nth (l : List Obj) (i : Nat) : Py Obj :=
  match (l[i]? : Option Obj) with
  | some o => .ok o
  | none => .error .indexError

/-- `[f(x) for x in l]` with exceptions. -/
def mapM' {α β : Type} (f : α → Py β) : List α → Py (List β)
  | [] => .ok []
  | x :: xs => do
    let a ← f x
    let b ← mapM' f xs
    return a :: b

def assert' (b : Bool) : Py Unit := if b then .ok () else .error .assertionError

/-- `isinstance(requestName, (bytes, str))` -/
def PyVal.isBytes : PyVal → Bool
  | .bytes _ => true
  | _ => false

/-- pureldap.py:786-788: the trailing optional `dnAttributes` of a matching-rule assertion. -/
def mraDnOf : List Obj → Option Int
  | .bool .mraDn _ v :: _ => some v
  | _ => none

/-- pureldap.py:776-798: picking the optional parts of a matching-rule assertion in order. -/
def mraParse (tag : UInt8) (l : List Obj) : Py Obj := do
  assert' (1 ≤ l.length && l.length ≤ 4)
  let (rule, l) := match l with
    | .oct .mraRule _ v :: r => (some v, r)
    | l => (none, l)
  let (ty, l) := match l with
    | .oct .mraType _ v :: r => (some v, r)
    | l => (none, l)
  match l with
  | .oct .mraValue _ v :: r => return .mra tag rule ty v (mraDnOf r)
  | _ => .error .assertionError

/-- `(c.controlType, c.criticality, c.controlValue)` (pureldap.py:91-93). -/
def controlVals : Obj → Py (PyVal × PyVal × PyVal)
  | .control _ a b c => .ok (a, b, c)
  | _ => .error .attributeError

/-- pureldap.py:87-96: the controls of a message, `[(c.controlType, c.criticality, c.controlValue) for c in l[2]]`. -/
def messageControls (l : List Obj) : Py (Option (List (PyVal × PyVal × PyVal))) :=
  if l.length ≤ 2 then .ok none else do
  let cs ← (← nth l 2).iter
  let cs ← mapM' controlVals cs
  return some cs

/-- pureldap.py:162-173: the authentication choice of a bind request. -/
def bindAuth (o : Obj) : Py Auth :=
  match o with
  | .oct _ _ p => .ok (.simple (.bytes p))
  | o => match o.data? with
    | some [a, b] => do
      let m ← a.value
      let c ← b.value
      return .sasl m c
    | some d => do
      let m ← (← nth d 0).value
      return .sasl m .none
    | none => .ok (.simple (.bytes []))

/-- pureldap.py:392-401: `serverSaslCreds` of a bind response. -/
def resultCreds (l : List Obj) : PyVal :=
  match (l[3]? : Option Obj) with
  | some (.oct .saslCreds _ v) => .bytes v
  | _ => .none

/-- `try: l[i].value except IndexError: None` (pureldap.py:1346-1350, 1512-1515). -/
def optNth (l : List Obj) (i : Nat) (f : PyVal → Py PyVal) : Py PyVal :=
  match (l[i]? : Option Obj) with
  | some o => do f (← o.value)
  | none => .ok .none

/-- pureldap.py:1645-1657: the optional trailing parts of an extended response. -/
def extResponseParts : List Obj → PyVal → PyVal → Py (PyVal × PyVal)
  | [], name, resp => .ok (name, resp)
  | .oct .responseName _ v :: r, _, resp => extResponseParts r (.bytes v) resp
  | .oct .response _ v :: r, name, _ => extResponseParts r name (.bytes v)
  | .seq .referral _ _ :: r, name, resp => extResponseParts r name resp
  | _ :: _, _, _ => .error .assertionError

/-- pureldap.py:1021-1024: `attr, li` of one attribute of a search result entry. -/
def entryAttr (o : Obj) : Py (PyVal × List PyVal) := do
  match ← o.iter with
  | [a, li] => do
    let k ← a.value
    let vs ← mapM' Obj.value (← li.iter)
    return (k, vs)
  | _ => .error .valueError

/-- The class method `fromBER` of each class.  `decO` is `berDecodeObject`, `decM` is `berDecodeMultiple`. -/
def fromBER (decO : Ctx → Bytes → Py (Option Obj × Nat)) (decM : Ctx → Bytes → Py (List Obj))
    (c : Cls) (tag : UInt8) (content : Bytes) (ctx : Ctx) : Py Obj :=
  match c with
  | .boolean | .mraDn => do                                          -- pureber.py:250-255
    assert' (0 < content.length)
    let v ← ber2int content
    return .bool c tag (if v = 0 then 0 else 255)
  | .integer | .enumerated | .abandonRequest => do                   -- pureber.py:161-166
    assert' (0 < content.length)
    let v ← ber2int content
    return .int c tag v
  | .octetString | .ldapString | .saslCreds | .newSuperior | .delRequest | .fPresent
  | .subInitial | .subAny | .subFinal | .mraRule | .mraType | .mraValue
  | .responseName | .response | .pmUser | .pmOld | .pmNew =>         -- pureber.py:197-201
    .ok (.oct c tag content)
  | .null | .unbindRequest => do                                     -- pureber.py:228-232
    assert' (content.length = 0)
    return .null c tag
  | .sequence | .set | .referral => do                               -- pureber.py:283-287
    return .seq c tag (← decM ctx content)
  | .message => do                                                   -- pureldap.py:79-100
    let l ← decM ctx content
    let id ← (← nth l 0).value
    let value ← nth l 1
    let controls ← messageControls l
    assert' (l.length ≤ 3)
    return .message id value controls
  | .bindRequest => do                                               -- pureldap.py:156-176
    let l ← decM (.fb .bindRequest ctx) content
    let l2 ← nth l 2
    let auth ← bindAuth l2
    let version ← (← nth l 0).value
    let dn ← (← nth l 1).value
    return .bind tag version dn auth
  | .searchResultReference => do                                     -- pureldap.py:253-260
    return .searchReference 0x53 (← decM (.fb .searchReference ctx) content)
  | .searchResultDone | .modifyResponse | .addResponse | .delResponse | .modifyDNResponse
  | .compareResponse => do                                           -- pureldap.py:274-294
    let l ← decM (.fb .bindRequest ctx) content
    assert' (3 ≤ l.length && l.length ≤ 4)
    return .result c tag (← (← nth l 0).value) (← (← nth l 1).value) (← (← nth l 2).value) .none
  | .bindResponse => do                                              -- pureldap.py:382-411
    let l ← decM (.fb .bindResponse ctx) content
    assert' (3 ≤ l.length && l.length ≤ 4)
    let creds := resultCreds l
    return .result c 0x41 (← (← nth l 0).value) (← (← nth l 1).value) (← (← nth l 2).value) creds
  | .extendedResponse => do                                          -- pureldap.py:1634-1666
    let l ← decM (.fb .extResponse ctx) content
    assert' (3 ≤ l.length && l.length ≤ 6)
    let nr ← extResponseParts (l.drop 3) .none .none
    return .extResponse tag (← (← nth l 0).value) (← (← nth l 1).value) (← (← nth l 2).value) nr.1 nr.2
  | .ava | .fEq | .fGe | .fLe | .fApprox => do                       -- pureldap.py:453-459
    let l ← decM ctx content
    match l with
    | [a, b] => return .ava c tag a b
    | _ => .error .assertionError
  | .fAnd | .fOr => do                                               -- pureldap.py:498-504
    return .seq c tag (← decM (.fb .filter ctx) content)
  | .fNot => do                                                      -- pureldap.py:535-549
    let (v, n) ← decO (.both .filter ctx ctx) content
    assert' (n = content.length)
    match v with
    | some v => return .not tag v
    | none => .error .assertionError
  | .fSubstrings => do                                               -- pureldap.py:613-622
    let l ← decM (.fb .substrings ctx) content
    match l with
    | [a, b] => do
      let w ← toWire b
      assert' (1 ≤ w.length)
      let ty ← a.value
      let subs ← b.iter
      return .substrings tag ty subs
    | _ => .error .assertionError
  | .fExt => do                                                      -- pureldap.py:764-800
    let l ← decM (.both .mra ctx ctx) content
    mraParse tag l
  | .searchRequest => do                                             -- pureldap.py:909-928
    let l ← decM (.both .filter ctx ctx) content
    match l with
    | [a, b, c, d, e, f, g, h] => do
      let a ← a.value
      let b ← b.value
      let c ← c.value
      let d ← d.value
      let e ← e.value
      let f ← f.value
      let attrs ← mapM' Obj.value (← h.iter)
      return .searchRequest tag a b c d e f g attrs
    | _ => .error .assertionError
  | .searchResultEntry => do                                         -- pureldap.py:1016-1028
    let l ← decM (.both .filter ctx ctx) content
    let name ← (← nth l 0).value
    match (← nth l 1).data? with
    | none => .error .attributeError
    | some items => return .searchEntry tag name (← mapM' entryAttr items)
  | .controls => do                                                  -- pureldap.py:1075-1082
    return .seq c tag (← decM (.inh .controls ctx) content)
  | .control => do                                                   -- pureldap.py:1089-1106
    let l ← decM ctx content
    match l with
    | [a] => do return .control tag (← a.value) .none .none
    | [a, b] => do
      let ty ← a.value
      match b with
      | .bool _ _ v => return .control tag ty (.int v) .none
      | .oct _ _ v => return .control tag ty .none (.bytes v)
      | _ => return .control tag ty .none .none
    | [a, b, d] => do return .control tag (← a.value) (← b.value) (← d.value)
    | _ => .error .assertionError
  | .modifyRequest => do                                             -- pureldap.py:1150-1157
    let l ← decM ctx content
    match l with
    | [a, b] => do
      let object ← a.value
      match b.data? with
      | some d => return .modifyRequest tag object d
      | none => .error .attributeError
    | _ => .error .assertionError
  | .addRequest => do                                                -- pureldap.py:1230-1235
    let l ← decM ctx content
    return .addRequest tag (← (← nth l 0).value) (← nth l 1)
  | .modifyDNRequest => do                                           -- pureldap.py:1339-1358
    let l ← decM (.fb .modifyDN ctx) content
    let sup ← optNth l 3 (fun v => do return PyVal.bytes (← toBytes v))
    let entry ← toBytes (← (← nth l 0).value)
    let newrdn ← toBytes (← (← nth l 1).value)
    let del ← (← nth l 2).value
    return .modifyDN tag (.bytes entry) (.bytes newrdn) del sup
  | .compareRequest => do                                            -- pureldap.py:1418-1427
    let l ← decM (.both .compare ctx ctx) content
    return .compare tag (← (← nth l 0).value) (← nth l 1)
  | .extendedRequest => do                                           -- pureldap.py:1506-1528
    let l ← decM (.fb .extRequest ctx) content
    let value ← optNth l 1 (fun v => .ok v)
    let name ← (← nth l 0).value
    assert' name.isBytes
    assert' (value = .none || value.isBytes)
    return .extRequest tag name value

/-- pureber.py:387-403 `berDecodeMultiple`, with the single-object decoder as a parameter.  The first argument
bounds the number of iterations; `content.length` always suffices because each iteration consumes at
least two bytes. -/
def decodeMany (dec : Bytes → Py (Option Obj × Nat)) : Nat → Bytes → Py (List Obj)
  | _, [] => .ok []
  | 0, _ :: _ => .error .recursionDepth
  | fuel + 1, content => do
    let (o, n) ← dec content
    assert' (n ≤ content.length)
    let rest ← decodeMany dec fuel (content.drop n)
    match o with
    | some o => return o :: rest
    | none => return rest

/-- pureber.py:363-384 `berDecodeObject(context, m)`.  `i = byte & (CLASS_MASK | TAG_MASK)` masks with 0xDF.
The first argument bounds the nesting depth; any bound above `m.length` gives the same result
(`decodeObject_fuel` below), `berDecodeObject` uses `m.length + 1`. -/
def decodeObject : Nat → Ctx → Bytes → Py (Option Obj × Nat)
  | _, _, [] => .ok (none, 0)
  | 0, _, _ => .error .recursionDepth
  | fuel + 1, ctx, m => do
    need m 2
    let i := (m.headD 0) &&& 0xDF
    let (length, lenlen) ← berDecodeLength m 1
    need m (1 + lenlen + length)
    let m2 := (m.drop (1 + lenlen)).take length
    match ctx.lookup i with
    | some cls => do
      let r ← fromBER (decodeObject fuel) (fun c b => decodeMany (decodeObject fuel c) b.length b)
        cls i m2 ctx.inherit
      return (some r, 1 + lenlen + length)
    | none => return (none, 1 + lenlen + length)

/-- pureber.py:363-384. -/
def berDecodeObject (ctx : Ctx) (m : Bytes) : Py (Option Obj × Nat) := decodeObject (m.length + 1) ctx m

/-- pureber.py:387-403. -/
def berDecodeMultiple (content : Bytes) (ctx : Ctx) : Py (List Obj) :=
  decodeMany (decodeObject (content.length + 1) ctx) content.length content

end Verif.Ldap
