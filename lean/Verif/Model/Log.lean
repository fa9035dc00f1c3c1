import Verif.Model.ProxySession
import Verif.Model.Checker
/-
What is logged of messages: the `__repr__` methods of pureber.py and pureldap.py, and `LDAPServer.handle` with `debug` on.

Simplification: only objects that were decoded from octets; their strings are octets.  (`Model/Ldap` does not tell text from octets.)
-/
namespace Verif.Log
open Verif.Ldap

/-- `self.__class__.__name__` -/
def className : Cls → Str
  | .boolean => "BERBoolean".toList
  | .integer => "BERInteger".toList
  | .octetString => "BEROctetString".toList
  | .null => "BERNull".toList
  | .enumerated => "BEREnumerated".toList
  | .sequence => "BERSequence".toList
  | .set => "BERSet".toList
  | .ldapString => "LDAPString".toList
  | .message => "LDAPMessage".toList
  | .bindRequest => "LDAPBindRequest".toList
  | .bindResponse => "LDAPBindResponse".toList
  | .saslCreds => "LDAPBindResponse_serverSaslCreds".toList
  | .unbindRequest => "LDAPUnbindRequest".toList
  | .searchRequest => "LDAPSearchRequest".toList
  | .searchResultEntry => "LDAPSearchResultEntry".toList
  | .searchResultDone => "LDAPSearchResultDone".toList
  | .searchResultReference => "LDAPSearchResultReference".toList
  | .referral => "LDAPReferral".toList
  | .modifyRequest => "LDAPModifyRequest".toList
  | .modifyResponse => "LDAPModifyResponse".toList
  | .addRequest => "LDAPAddRequest".toList
  | .addResponse => "LDAPAddResponse".toList
  | .delRequest => "LDAPDelRequest".toList
  | .delResponse => "LDAPDelResponse".toList
  | .extendedRequest => "LDAPExtendedRequest".toList
  | .extendedResponse => "LDAPExtendedResponse".toList
  | .modifyDNRequest => "LDAPModifyDNRequest".toList
  | .modifyDNResponse => "LDAPModifyDNResponse".toList
  | .abandonRequest => "LDAPAbandonRequest".toList
  | .compareRequest => "LDAPCompareRequest".toList
  | .compareResponse => "LDAPCompareResponse".toList
  | .controls => "LDAPControls".toList
  | .control => "LDAPControl".toList
  | .newSuperior => "LDAPModifyDNResponse_newSuperior".toList
  | .ava => "LDAPAttributeValueAssertion".toList
  | .fAnd => "LDAPFilter_and".toList
  | .fOr => "LDAPFilter_or".toList
  | .fNot => "LDAPFilter_not".toList
  | .fEq => "LDAPFilter_equalityMatch".toList
  | .fSubstrings => "LDAPFilter_substrings".toList
  | .fGe => "LDAPFilter_greaterOrEqual".toList
  | .fLe => "LDAPFilter_lessOrEqual".toList
  | .fPresent => "LDAPFilter_present".toList
  | .fApprox => "LDAPFilter_approxMatch".toList
  | .fExt => "LDAPFilter_extensibleMatch".toList
  | .subInitial => "LDAPFilter_substrings_initial".toList
  | .subAny => "LDAPFilter_substrings_any".toList
  | .subFinal => "LDAPFilter_substrings_final".toList
  | .mraRule => "LDAPMatchingRuleAssertion_matchingRule".toList
  | .mraType => "LDAPMatchingRuleAssertion_type".toList
  | .mraValue => "LDAPMatchingRuleAssertion_matchValue".toList
  | .mraDn => "LDAPMatchingRuleAssertion_dnAttributes".toList
  | .responseName => "LDAPResponseName".toList
  | .response => "LDAPResponse".toList
  | .pmUser => "LDAPPasswordModifyRequest_userIdentity".toList
  | .pmOld => "LDAPPasswordModifyRequest_oldPasswd".toList
  | .pmNew => "LDAPPasswordModifyRequest_newPasswd".toList

/-- `self.__class__.tag` (pureber.py and pureldap.py, the attribute `tag` of each class or of the one it inherits from). -/
def classTag : Cls → UInt8
  | .boolean => 0x01
  | .integer => 0x02
  | .octetString | .ldapString => 0x04
  | .null => 0x05
  | .enumerated => 0x0A
  | .sequence | .message | .control | .ava => 0x10
  | .set => 0x11
  | .bindRequest => 0x40
  | .bindResponse => 0x41
  | .unbindRequest => 0x42
  | .searchRequest => 0x43
  | .searchResultEntry => 0x44
  | .searchResultDone => 0x45
  | .modifyRequest => 0x46
  | .modifyResponse => 0x47
  | .addRequest => 0x48
  | .addResponse => 0x49
  | .delRequest => 0x4A
  | .delResponse => 0x4B
  | .modifyDNRequest => 0x4C
  | .modifyDNResponse => 0x4D
  | .compareRequest => 0x4E
  | .compareResponse => 0x4F
  | .abandonRequest => 0x50
  | .searchResultReference => 0x53
  | .extendedRequest => 0x57
  | .extendedResponse => 0x58
  | .controls | .newSuperior | .fAnd | .subInitial | .pmUser => 0x80
  | .fOr | .subAny | .mraRule | .pmOld => 0x81
  | .fNot | .subFinal | .mraType | .pmNew => 0x82
  | .referral | .fEq | .mraValue => 0x83
  | .fSubstrings | .mraDn => 0x84
  | .fGe => 0x85
  | .fLe => 0x86
  | .saslCreds | .fPresent => 0x87
  | .fApprox => 0x88
  | .fExt => 0x89
  | .responseName => 0x8A
  | .response => 0x8B

/-- `repr(v)`, also `"%s" % v` -/
def reprVal : PyVal → Str
  | .int i => Decimal.ofInt i
  | .bytes b => Checker.reprOctets b
  | .none => "None".toList

/-- `", ".join(l)` -/
def joined : List Str → Str
  | [] => []
  | [x] => x
  | x :: l => x ++ (", ".toList ++ joined l)

/-- `repr` of a list whose elements have these representations. -/
def reprList (l : List Str) : Str := '[' :: joined l ++ [']']

/-- `repr` of a tuple of at least two elements. -/
def reprTuple (l : List Str) : Str := '(' :: joined l ++ [')']

/-- `name=…` -/
def field (name : String) (s : Str) : Str := name.toList ++ '=' :: s

/-- The fields, and the tag if it is not the usual one. -/
def shown (c : Cls) (tag : UInt8) (fields : List Str) : Str :=
  className c ++ reprTuple (fields ++ if tag ≠ classTag c then [field "tag" (Decimal.ofInt tag.toNat)] else [])

/-- `repr("*" * n)` -/
def stars (n : Nat) : Str := '\'' :: List.replicate n '*' ++ ['\'']

/-- `if v: l.append("name=%r" % v)` -/
def fieldIf (name : String) (v : PyVal) : List Str := if v.truthy then [field name (reprVal v)] else []

/-- The attribute of the message that holds the value of a simple object: pureldap.py:1306-1314, 1471-1478, else pureber.py:180-187, 211-219. -/
def valueField : Cls → String
  | .delRequest => "entry"
  | .abandonRequest => "id"
  | _ => "value"

/-- pureldap.py:1543-1549: the passwords of a password modify request; else pureber.py:211-219. -/
def reprString (c : Cls) (v : Bytes) : Str :=
  match c with
  | .pmOld | .pmNew => stars v.length
  | _ => Checker.reprOctets v

/-- `len(self.auth)`, of a password or of a pair (pureldap.py:223). -/
def authLength : Auth → Py Nat
  | .simple (.bytes p) => .ok p.length
  | .simple _ => .error .typeError
  | .sasl _ _ => .ok 2

/-- `repr(self.sasl)` -/
def reprSasl : Auth → Str
  | .simple _ => "False".toList
  | .sasl _ _ => "True".toList

/-- `"%d" % v` -/
def formatInt : PyVal → Py Str
  | .int i => .ok (Decimal.ofInt i)
  | _ => .error .typeError

/-- A part of a matching rule assertion, an object or `None`. -/
def reprPart (c : Cls) : Option Bytes → Str
  | some v => shown c (classTag c) [field "value" (Checker.reprOctets v)]
  | none => "None".toList

/-- The controls of a message: a list of triples or `None`. -/
def reprControls : Option (List (PyVal × PyVal × PyVal)) → Str
  | none => "None".toList
  | some cs => reprList (cs.map fun c => reprTuple [reprVal c.1, reprVal c.2.1, reprVal c.2.2])

mutual
/-- The `__repr__` method of each class. -/
def reprObj : Obj → Py Str
  | .int c tag v => .ok (shown c tag [field (valueField c) (Decimal.ofInt v)])        -- pureber.py:180-187, pureldap.py:1471-1478
  | .oct c tag v => .ok (shown c tag [field (valueField c) (reprString c v)])         -- pureber.py:211-219, pureldap.py:357-364, 1306-1314, 1543-1549
  | .null c tag => .ok (shown c tag [])                                               -- pureber.py:237-241
  | .bool c tag v => .ok (shown c tag [field "value" (Decimal.ofInt v)])              -- pureber.py:268-275
  | .seq c tag data => do                                                             -- pureber.py:301-308
    return shown c tag [field "value" (reprList (← reprObjs data))]
  | .not tag v => do return shown .fNot tag [field "value" (← reprObj v)]             -- pureldap.py:551-558
  | .ava c tag d v => do                                                              -- pureldap.py:475-489
    let a ← reprObj d
    let b ← reprObj v
    return shown c tag [field "attributeDesc" a, field "assertionValue" b]
  | .substrings tag ty subs => do                                                     -- pureldap.py:636-648
    return shown .fSubstrings tag [field "type" (reprVal ty), field "substrings" (reprList (← reprObjs subs))]
  | .mra tag rule ty mv dn => .ok (shown .fExt tag                                    -- pureldap.py:842-850
      [field "matchingRule" (reprPart .mraRule rule), field "type" (reprPart .mraType ty),
       field "matchValue" (reprPart .mraValue (some mv)),
       field "dnAttributes" (match dn with
         | some v => shown .mraDn (classTag .mraDn) [field "value" (Decimal.ofInt v)]
         | none => "None".toList)])
  | .message id value controls => do                                                  -- pureldap.py:120-127
    return shown .message (classTag .message) [field "id" (reprVal id), field "value" (← reprObj value), field "controls" (reprControls controls)]
  | .control tag _ _ _ => .ok (shown .control tag [field "value" (reprList [])])      -- pureber.py:301-308, with `data` empty
  | .bind tag version dn auth => do                                                   -- pureldap.py:222-231
    let n ← authLength auth
    let v ← formatInt version
    return className .bindRequest ++ reprTuple ([field "version" v, field "dn" (reprVal dn), field "auth" (stars n)] ++
      (if tag ≠ classTag .bindRequest then [field "tag" (Decimal.ofInt tag.toNat)] else []) ++ [field "sasl" (reprSasl auth)])
  | .result c tag code mdn msg _ =>                                                   -- pureldap.py:340-351
    .ok (shown c tag (field "resultCode" (reprVal code) :: (fieldIf "matchedDN" mdn ++ fieldIf "errorMessage" msg)))
  | .extResponse tag code mdn msg _ _ =>                                              -- pureldap.py:340-351
    .ok (shown .extendedResponse tag (field "resultCode" (reprVal code) :: (fieldIf "matchedDN" mdn ++ fieldIf "errorMessage" msg)))
  | .searchRequest tag base scope deref sl tl to_ filter attrs => do                  -- pureldap.py:977-1010
    return shown .searchRequest tag [field "baseObject" (reprVal base), field "scope" (reprVal scope), field "derefAliases" (reprVal deref),
      field "sizeLimit" (reprVal sl), field "timeLimit" (reprVal tl), field "typesOnly" (reprVal to_), field "filter" (← reprObj filter),
      field "attributes" (reprList (attrs.map reprVal))]
  | .searchEntry tag name attrs => .ok (shown .searchResultEntry tag                  -- pureldap.py:1057-1065
      [field "objectName" (reprVal name), field "attributes" (reprList (attrs.map fun a => reprTuple [reprVal a.1, reprList (a.2.map reprVal)]))])
  | .searchReference tag uris => do                                                   -- pureldap.py:265-270
    return shown .searchResultReference tag [field "uris" (reprList (← reprObjs uris))]
  | .modifyRequest tag object mods => do                                              -- pureldap.py:1208-1220
    return shown .modifyRequest tag [field "object" (reprVal object), field "modification" (reprList (← reprObjs mods))]
  | .addRequest tag entry attrs => do                                                 -- pureldap.py:1270-1282
    return shown .addRequest tag [field "entry" (reprVal entry), field "attributes" (← reprObj attrs)]
  | .modifyDN tag entry newrdn del sup => .ok (shown .modifyDNRequest tag             -- pureldap.py:1391-1401
      ([field "entry" (reprVal entry), field "newrdn" (reprVal newrdn), field "deleteoldrdn" (reprVal del)] ++
        if sup ≠ .none then [field "newSuperior" (reprVal sup)] else []))
  | .compare _ entry ava => do                                                        -- pureldap.py:1441-1446
    return className .compareRequest ++ reprTuple [field "entry" (reprVal entry), field "ava" (← reprObj ava)]
  | .extRequest tag _ _ => .ok (shown .extendedRequest tag [field "value" (reprList [])]) -- pureber.py:301-308, with `data` empty

/-- `[repr(x) for x in l]` -/
def reprObjs : List Obj → Py (List Str)
  | [] => .ok []
  | x :: l => do
    let a ← reprObj x
    let b ← reprObjs l
    return a :: b
end

/-- ldapserver.py:112-113: the line that is logged of a message received. -/
def receivedLine (m : Obj) : Py Str := do return "S<-C ".toList ++ (← reprObj m)

/-- ldapserver.py:111: `isinstance(msg.value, pureldap.LDAPProtocolRequest)` -/
def asserted : Obj → Bool
  | .message _ op _ => Server.isRequest op
  | _ => false

/-- ldapserver.py:110-128: `LDAPServer.handle` with `debug` on; the lines are collected.  If there is no line, `handle` has raised.
The lines for the responses (ldapserver.py:56-57) are left out. -/
def debugHandle (env : Server.Env) (lucks : Nat → Server.Luck) : Conn.Handler (ProxySession.Serving × List Str) := fun x m =>
  if asserted m then
    match receivedLine m with
    | .error _ => (x, true)
    | .ok line => (((ProxySession.serverHandle env lucks x.1 m).1, x.2 ++ [line]), (ProxySession.serverHandle env lucks x.1 m).2)
  else (x, true)

end Verif.Log
