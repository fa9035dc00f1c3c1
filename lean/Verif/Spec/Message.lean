import Verif.Model.Ldap
/-
Specification vocabulary for LDAP messages (RFC 4511): typed messages, how a user of the library builds the
corresponding library object (`build`), and how the fields are read off a library object (`read`).
-/
namespace Verif.Spec
open Verif.Ldap

inductive SubKind where
  | initial | any | final
  deriving DecidableEq, Repr

/-- Search filters, RFC 4511 section 4.5.1.7. -/
inductive Filter where
  | and (fs : List Filter)
  | or (fs : List Filter)
  | not (f : Filter)
  | equal (attr value : Bytes)
  | substrings (attr : Bytes) (parts : List (SubKind × Bytes))
  | ge (attr value : Bytes)
  | le (attr value : Bytes)
  | present (attr : Bytes)
  | approx (attr value : Bytes)
  | ext (rule type : Option Bytes) (value : Bytes) (dn : Option Bool)

structure Control where
  oid : Bytes
  critical : Option Bool
  value : Option Bytes
  deriving DecidableEq, Repr

/-- Responses that consist of a bare result (RFC 4511 section 4.1.9). -/
inductive ResultKind where
  | searchDone | modify | add | delete | modifyDN | compare
  deriving DecidableEq, Repr

abbrev Attrs := List (Bytes × List Bytes)

/-- Protocol operations. -/
inductive Op where
  | bindSimple (version : Int) (dn password : Bytes)
  | bindSasl (version : Int) (dn mechanism : Bytes) (creds : Option Bytes)
  | bindResponse (code : Int) (matched message : Bytes) (creds : Option Bytes)
  | unbind
  | search (base : Bytes) (scope deref sizeLimit timeLimit : Int) (typesOnly : Bool) (filter : Filter)
      (attributes : List Bytes)
  | entry (dn : Bytes) (attributes : Attrs)
  | reference (uris : List Bytes)
  | result (kind : ResultKind) (code : Int) (matched message : Bytes)
  | modify (dn : Bytes) (changes : List (Int × Bytes × List Bytes))
  | add (dn : Bytes) (attributes : Attrs)
  | delete (dn : Bytes)
  | modifyDN (dn newrdn : Bytes) (deleteOld : Bool) (newSuperior : Option Bytes)
  | compare (dn attr value : Bytes)
  | abandon (id : Int)
  | extRequest (name : Bytes) (value : Option Bytes)
  | extResponse (code : Int) (matched message : Bytes) (name value : Option Bytes)

structure Msg where
  id : Int
  op : Op
  controls : Option (List Control)

/-- Messages the wire format can represent: `pureldap` does not transmit empty SASL credentials, so they cannot be
told from absent ones (pureldap.py:209, 333). -/
def Op.WF : Op → Prop
  | .bindSasl _ _ _ c => c ≠ some []
  | .bindResponse _ _ _ c => c ≠ some []
  | _ => True

/-! ### Building library objects -/

/-- An octet string object as a user of the library writes it, `BEROctetString(v)` and the like. -/
def octet (v : Bytes) : Obj := .oct .octetString 0x04 v

def optVal : Option Bytes → PyVal
  | some b => .bytes b
  | none => .none

def boolVal (b : Bool) : PyVal := .int (if b then 1 else 0)

def subObj : SubKind × Bytes → Obj
  | (.initial, v) => .oct .subInitial 0x80 v
  | (.any, v) => .oct .subAny 0x81 v
  | (.final, v) => .oct .subFinal 0x82 v

mutual
def Filter.build : Filter → Obj
  | .and fs => .seq .fAnd 0x80 (Filter.buildAll fs)
  | .or fs => .seq .fOr 0x81 (Filter.buildAll fs)
  | .not f => .not 0x82 f.build
  | .equal a v => .ava .fEq 0x83 (octet a) (octet v)
  | .substrings a ps => .substrings 0x84 (.bytes a) (ps.map subObj)
  | .ge a v => .ava .fGe 0x85 (octet a) (octet v)
  | .le a v => .ava .fLe 0x86 (octet a) (octet v)
  | .present a => .oct .fPresent 0x87 a
  | .approx a v => .ava .fApprox 0x88 (octet a) (octet v)
  | .ext r t v d => .mra 0x89 r t v (d.map fun b => if b then 255 else 0)
def Filter.buildAll : List Filter → List Obj
  | [] => []
  | f :: fs => f.build :: Filter.buildAll fs
end

def ResultKind.cls : ResultKind → Cls
  | .searchDone => .searchResultDone | .modify => .modifyResponse | .add => .addResponse
  | .delete => .delResponse | .modifyDN => .modifyDNResponse | .compare => .compareResponse

def ResultKind.tag : ResultKind → UInt8
  | .searchDone => 0x45 | .modify => 0x47 | .add => 0x49 | .delete => 0x4B | .modifyDN => 0x4D | .compare => 0x4F

def seqObj (l : List Obj) : Obj := .seq .sequence 0x10 l
def setObj (l : List Obj) : Obj := .seq .set 0x11 l

/-- One attribute with its values, `BERSequence([BEROctetString(key), BERSet([...])])`. -/
def attrObj (kv : Bytes × List Bytes) : Obj := seqObj [octet kv.1, setObj (kv.2.map octet)]

/-- One change of a modify request. -/
def changeObj (c : Int × Bytes × List Bytes) : Obj :=
  seqObj [.int .enumerated 0x0A c.1, seqObj [octet c.2.1, setObj (c.2.2.map octet)]]

def Op.build : Op → Obj
  | .bindSimple v dn p => .bind 0x40 (.int v) (.bytes dn) (.simple (.bytes p))
  | .bindSasl v dn m c => .bind 0x40 (.int v) (.bytes dn) (.sasl (.bytes m) (optVal c))
  | .bindResponse c m e s => .result .bindResponse 0x41 (.int c) (.bytes m) (.bytes e) (optVal s)
  | .unbind => .null .unbindRequest 0x42
  | .search b s d sl tl to f as => .searchRequest 0x43 (.bytes b) (.int s) (.int d) (.int sl) (.int tl)
      (boolVal to) f.build (as.map .bytes)
  | .entry dn as => .searchEntry 0x44 (.bytes dn) (as.map fun kv => (.bytes kv.1, kv.2.map .bytes))
  | .reference us => .searchReference 0x53 (us.map octet)
  | .result k c m e => .result k.cls k.tag (.int c) (.bytes m) (.bytes e) .none
  | .modify dn cs => .modifyRequest 0x46 (.bytes dn) (cs.map changeObj)
  | .add dn as => .addRequest 0x48 (.bytes dn) (seqObj (as.map attrObj))
  | .delete dn => .oct .delRequest 0x4A dn
  | .modifyDN dn n d s => .modifyDN 0x4C (.bytes dn) (.bytes n) (boolVal d) (optVal s)
  | .compare dn a v => .compare 0x4E (.bytes dn) (.ava .ava 0x10 (octet a) (octet v))
  | .abandon i => .int .abandonRequest 0x50 i
  | .extRequest n v => .extRequest 0x57 (.bytes n) (optVal v)
  | .extResponse c m e n v => .extResponse 0x58 (.int c) (.bytes m) (.bytes e) (optVal n) (optVal v)

def Control.vals (c : Control) : PyVal × PyVal × PyVal :=
  (.bytes c.oid, (match c.critical with | some b => boolVal b | none => .none), optVal c.value)

def Msg.build (m : Msg) : Obj := .message (.int m.id) m.op.build (m.controls.map (·.map Control.vals))

/-! ### Reading the fields of a library object -/

def asInt : PyVal → Option Int
  | .int i => some i
  | _ => none

def asBytes : PyVal → Option Bytes
  | .bytes b => some b
  | _ => none

def asOpt : PyVal → Option (Option Bytes)
  | .bytes b => some (some b)
  | .none => some none
  | _ => none

/-- Python truth of an integer. -/
def asBool : PyVal → Option Bool
  | .int i => some (i ≠ 0)
  | _ => none

def asOptBool : PyVal → Option (Option Bool)
  | .int i => some (some (i ≠ 0))
  | .none => some none
  | _ => none

/-- All-or-nothing map. -/
def allSome {α β : Type} (f : α → Option β) : List α → Option (List β)
  | [] => some []
  | x :: xs => do
    let a ← f x
    let b ← allSome f xs
    return a :: b

def octVal : Obj → Option Bytes
  | .oct _ _ v => some v
  | _ => none

def readSub : Obj → Option (SubKind × Bytes)
  | .oct .subInitial _ v => some (.initial, v)
  | .oct .subAny _ v => some (.any, v)
  | .oct .subFinal _ v => some (.final, v)
  | _ => none

mutual
def readFilter : Obj → Option Filter
  | .seq .fAnd _ fs => do return .and (← readFilters fs)
  | .seq .fOr _ fs => do return .or (← readFilters fs)
  | .not _ f => do return .not (← readFilter f)
  | .ava .fEq _ a v => do return .equal (← octVal a) (← octVal v)
  | .ava .fGe _ a v => do return .ge (← octVal a) (← octVal v)
  | .ava .fLe _ a v => do return .le (← octVal a) (← octVal v)
  | .ava .fApprox _ a v => do return .approx (← octVal a) (← octVal v)
  | .substrings _ ty subs => do return .substrings (← asBytes ty) (← allSome readSub subs)
  | .oct .fPresent _ a => some (.present a)
  | .mra _ r t v d => some (.ext r t v (d.map fun i => decide (i ≠ 0)))
  | _ => none
def readFilters : List Obj → Option (List Filter)
  | [] => some []
  | f :: fs => do
    let a ← readFilter f
    let b ← readFilters fs
    return a :: b
end

def readAttrObj : Obj → Option (Bytes × List Bytes)
  | .seq .sequence _ [k, .seq .set _ vs] => do return (← octVal k, ← allSome octVal vs)
  | _ => none

def readChange : Obj → Option (Int × Bytes × List Bytes)
  | .seq .sequence _ [.int .enumerated _ op, .seq .sequence _ [k, .seq .set _ vs]] => do
    return (op, ← octVal k, ← allSome octVal vs)
  | _ => none

def readEntryAttr (kv : PyVal × List PyVal) : Option (Bytes × List Bytes) := do
  return (← asBytes kv.1, ← allSome asBytes kv.2)

def ResultKind.ofCls : Cls → Option ResultKind
  | .searchResultDone => some .searchDone | .modifyResponse => some .modify | .addResponse => some .add
  | .delResponse => some .delete | .modifyDNResponse => some .modifyDN | .compareResponse => some .compare
  | _ => none

def readOp : Obj → Option Op
  | .bind _ v dn (.simple p) => do return .bindSimple (← asInt v) (← asBytes dn) (← asBytes p)
  | .bind _ v dn (.sasl m c) => do return .bindSasl (← asInt v) (← asBytes dn) (← asBytes m) (← asOpt c)
  | .result .bindResponse _ c m e s => do
    return .bindResponse (← asInt c) (← asBytes m) (← asBytes e) (← asOpt s)
  | .result k _ c m e _ => do
    return .result (← ResultKind.ofCls k) (← asInt c) (← asBytes m) (← asBytes e)
  | .null .unbindRequest _ => some .unbind
  | .searchRequest _ b s d sl tl to f as => do
    return .search (← asBytes b) (← asInt s) (← asInt d) (← asInt sl) (← asInt tl) (← asBool to)
      (← readFilter f) (← allSome asBytes as)
  | .searchEntry _ dn as => do return .entry (← asBytes dn) (← allSome readEntryAttr as)
  | .searchReference _ us => do return .reference (← allSome octVal us)
  | .modifyRequest _ dn cs => do return .modify (← asBytes dn) (← allSome readChange cs)
  | .addRequest _ dn (.seq .sequence _ as) => do return .add (← asBytes dn) (← allSome readAttrObj as)
  | .oct .delRequest _ dn => some (.delete dn)
  | .modifyDN _ dn n d s => do return .modifyDN (← asBytes dn) (← asBytes n) (← asBool d) (← asOpt s)
  | .compare _ dn (.ava .ava _ a v) => do return .compare (← asBytes dn) (← octVal a) (← octVal v)
  | .int .abandonRequest _ i => some (.abandon i)
  | .extRequest _ n v => do return .extRequest (← asBytes n) (← asOpt v)
  | .extResponse _ c m e n v => do
    return .extResponse (← asInt c) (← asBytes m) (← asBytes e) (← asOpt n) (← asOpt v)
  | _ => none

def readControl (c : PyVal × PyVal × PyVal) : Option Control := do
  return ⟨← asBytes c.1, ← asOptBool c.2.1, ← asOpt c.2.2⟩

def readControls : Option (List (PyVal × PyVal × PyVal)) → Option (Option (List Control))
  | none => some none
  | some cs => do return some (← allSome readControl cs)

def readMsg : Obj → Option Msg
  | .message id op cs => do return ⟨← asInt id, ← readOp op, ← readControls cs⟩
  | _ => none

end Verif.Spec
