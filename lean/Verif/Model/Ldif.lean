import Verif.Model.Base64
import Verif.Model.Decimal
import Verif.Model.Server
/-
Model of LDIF writing and reading: /repo/ldaptor/protocols/ldap/ldif.py, ldifprotocol.py, ldifdelta.py, the serialisation
of entries in /repo/ldaptor/entry.py:121-136 and of change records in /repo/ldaptor/delta.py, and of the parts of
twisted.protocols.basic.LineReceiver that the parsers use.

A parser is fed by plain calls of `dataReceived`, without a transport, as in ldifdelta.py:158-171, ldiftree.py:49-75 and
inmemory.py:187-200.  An exception ends the reading; what was delivered before it stays delivered.
-/
namespace Verif.Ldif
open Verif.Tree (buildAttrs)
open Verif.Server (ascii Env classKeys isClassKey sortItems sortValues)

/-! Writing. -/

/-- ldif.py:29-34 `containsNonprintable` -/
def containsNonprintable (s : Bytes) : Bool := s.any fun c => 127 < c || c = 0 || c = 10 || c = 13

/-- ldif.py:40-49: the condition for base64. -/
def needsBase64 (v : Bytes) : Bool :=
  [0].isPrefixOf v || [10].isPrefixOf v || [13].isPrefixOf v || [32].isPrefixOf v || [58].isPrefixOf v || [60].isPrefixOf v ||
    [32].isSuffixOf v || containsNonprintable v

/-- ldif.py:37-52 `attributeAsLDIF` and 25-26 `attributeAsLDIF_base64`. -/
def attributeAsLDIF (a v : PyStr) : Bytes :=
  if needsBase64 v.toBytes then a.toBytes ++ [58, 58, 32] ++ Base64.ldifEncode v.toBytes
  else a.toBytes ++ [58, 32] ++ v.toBytes ++ [10]

/-- ldif.py:55-61 `asLDIF` -/
def asLDIF (dn : PyStr) (attributes : Attrs) : Bytes :=
  ascii "dn: " ++ dn.toBytes ++ [10] ++ attributes.flatMap (fun p => p.2.flatMap fun v => attributeAsLDIF p.1 v) ++ [10]

/-- ldif.py:64-65 `_header` -/
def header : Bytes := ascii "version: 1" ++ [10, 10]

/-- ldif.py:68-72 `manyAsLDIF` -/
def manyAsLDIF (objects : List (PyStr × Attrs)) : Bytes := header ++ objects.flatMap fun o => asLDIF o.1 o.2

/-- entry.py:129: `((key, self[key]) for key in self)`. -/
def itemsOf (U : Unicode) (e : Entry) : List PyStr → Py Attrs
  | [] => .ok []
  | k :: ks => do
    let vs ← e.getItem U k
    let r ← itemsOf U e ks
    return (k, vs) :: r

/-- entry.py:131-135: the loop over the sorted items. -/
def plainItems (U : Unicode) : Attrs → Py Attrs
  | [] => .ok []
  | (k, vs) :: l =>
    if isClassKey U k then plainItems U l
    else do
      let vs ← sortValues vs
      let r ← plainItems U l
      return (k, vs) :: r

/-- entry.py:121-135: the attributes in the order in which they are written. -/
def wireItems (env : Env) (e : Entry) : Py Attrs := do
  let items ← itemsOf env.U e (e.attrs.map (·.1))
  let r ← plainItems env.U (sortItems items)
  return (classKeys env).map (fun k => (k, Delta.sortBytes ((e.attrs.find env.U k).getD []))) ++ r

/-- entry.py:121-136 `toWire` -/
def toWire (env : Env) (e : Entry) : Py Bytes := do
  let a ← wireItems env e
  return asLDIF (.text e.dn.text) a

/-! Change records. -/

/-- delta.py:65, 86, 109: the name of a modification. -/
def modName : ModKind → PyStr
  | .add => .text "add".toList
  | .delete => .text "delete".toList
  | .replace => .text "replace".toList

/-- delta.py:61-69, 82-90, 105-113 `asLDIF` -/
def modAsLDIF (m : Mod) : Py Bytes := do
  let vs ← sortValues m.values
  return attributeAsLDIF (modName m.kind) m.key ++ vs.flatMap (fun v => attributeAsLDIF m.key v) ++ [45, 10]

/-- delta.py:140-141 -/
def modsAsLDIF : List Mod → Py Bytes
  | [] => .ok []
  | m :: ms => do
    let b ← modAsLDIF m
    let r ← modsAsLDIF ms
    return b ++ r

/-- delta.py:136-143 `ModifyOp.asLDIF` -/
def modifyAsLDIF (dn : Dn.Dn) (ms : List Mod) : Py Bytes := do
  let b ← modsAsLDIF ms
  return attributeAsLDIF (.text "dn".toList) (.text dn.text) ++
    attributeAsLDIF (.text "changetype".toList) (.text "modify".toList) ++ b ++ [10]

/-- delta.py:279-284 `DeleteOp.asLDIF` -/
def deleteAsLDIF (dn : Dn.Dn) : Bytes :=
  attributeAsLDIF (.text "dn".toList) (.text dn.text) ++
    attributeAsLDIF (.text "changetype".toList) (.text "delete".toList) ++ [10]

/-- `bytes.splitlines()`: lines end at `\n`, `\r` or `\r\n`; the first argument is the line so far, and whether the last
octet was `\r`.  An unfinished last line counts only if it is not empty. -/
def splitLines (line : Bytes) (cr : Bool) : Bytes → List Bytes
  | [] => if line = [] then [] else [line]
  | b :: r =>
    if b = 10 then (if cr then splitLines [] false r else line :: splitLines [] false r)
    else if b = 13 then line :: splitLines [] true r
    else splitLines (line ++ [b]) false r

/-- `rstrip(b"\n")` -/
def rstripNewlines (b : Bytes) : Bytes := (b.reverse.dropWhile (· = 10)).reverse

/-- delta.py:227-231 `AddOp.asLDIF` -/
def addAsLDIF (env : Env) (e : Entry) : Py Bytes := do
  let w ← toWire env e
  match splitLines [] false w with
  | [] => .error .indexError
  | l :: ls =>
    if (ascii "dn:").isPrefixOf l then
      return ((l :: rstripNewlines (attributeAsLDIF (.text "changetype".toList) (.text "add".toList)) :: ls).map
        (· ++ [10])).flatten
    else .error .assertionError

/-! Reading. -/

/-- The exceptions of ldifprotocol.py:9-39, ldifdelta.py:13-38, and all others. -/
inductive Err where
  | withoutSemicolon
  | nonDN
  | startsWithSpace
  | versionNotANumber
  | unsupportedVersion
  | truncated
  | missingChangeType
  | unknownChangeType
  | unknownModification
  | missingEndDash
  | differentAttributeType
  | addMissingAttributes
  | deleteHasJunk
  | notImplemented
  | py (e : PyErr)
  deriving DecidableEq, Repr

/-- ldifprotocol.py:43-45 and ldifdelta.py:6-10: the states. -/
inductive Mode where
  | header
  | waitForDn
  | inEntry
  | waitForChangetype
  | waitForModSpec
  | inModSpec
  | inAddEntry
  | inDelete
  deriving DecidableEq, Repr

/-- What is passed to `gotEntry`: an entry, or an operation of delta.py. -/
inductive Record where
  | entry (e : Entry)
  | modify (dn : Dn.Dn) (mods : List Mod)
  | add (e : Entry)
  | delete (dn : Dn.Dn)
  deriving DecidableEq, Repr

/-- ldifprotocol.py:48-56 and ldifdelta.py:41-156: the attributes of a parser.  `isDelta` says which class it is; `got` lists
what was passed to `gotEntry`; `spec` stands for `mod_spec`, `mod_spec_attr` and `mod_spec_data`. -/
structure Parser where
  isDelta : Bool
  mode : Mode
  dn : Option Bytes
  data : Option (List (Bytes × List Bytes))
  lastLine : Option Bytes
  version : Option Int
  modifications : List Mod
  spec : Option (ModKind × Bytes × List Bytes)
  got : List Record
  deriving DecidableEq, Repr

/-- A new parser. -/
def start (isDelta : Bool) : Parser := ⟨isDelta, .header, none, none, none, none, [], none, []⟩

/-- `lstrip(b" ")` -/
def lstrip (b : Bytes) : Bytes := b.dropWhile (· = 32)

/-- Calls that raise Python's own exceptions. -/
def lift {α : Type} : Py α → Except Err α
  | .ok a => .ok a
  | .error e => .error (.py e)

/-- ldifprotocol.py:77-83 `parseValue` -/
def parseValue : Bytes → Except Err Bytes
  | 58 :: r => lift (Base64.decodebytes (lstrip r))
  | 60 :: _ => .error .notImplemented
  | v => .ok (lstrip v)

/-- `line.split(b":", 1)`, `none` if there is no colon. -/
def splitColon : Bytes → Option (Bytes × Bytes)
  | [] => none
  | b :: r =>
    if b = 58 then some ([], r)
    else
      match splitColon r with
      | none => none
      | some (k, v) => some (b :: k, v)

/-- ldifprotocol.py:85-93 `_parseLine` -/
def parseLine (line : Bytes) : Except Err (Bytes × Bytes) :=
  match splitColon line with
  | none => .error .withoutSemicolon
  | some (k, v) =>
    match parseValue v with
    | .ok v => .ok (k, v)
    | .error e => .error e

/-- `bytes.upper()` of an octet. -/
def upperByte (b : UInt8) : UInt8 := if 97 ≤ b ∧ b ≤ 122 then b - 32 else b

/-- ldifprotocol.py:110-126 and ldifdelta.py:42-45 `state_WAIT_FOR_DN` -/
def stateWaitForDn (p : Parser) (line : Bytes) : Except Err Parser :=
  if p.dn.isSome || p.data.isSome then .error (.py .assertionError)
  else if line = [] then .ok p
  else
    match parseLine line with
    | .error e => .error e
    | .ok (key, val) =>
      if key.map upperByte = [68, 78] then
        .ok { p with dn := some val, data := some [], mode := if p.isDelta then .waitForChangetype else .inEntry }
      else .error .nonDN

/-- `data[key].append(val)`, with a new list if the key is new. -/
def append (key val : Bytes) : List (Bytes × List Bytes) → List (Bytes × List Bytes)
  | [] => [(key, [val])]
  | (k, vs) :: d => if k = key then (k, vs ++ [val]) :: d else (k, vs) :: append key val d

/-- entry.py:41-61: `BaseLDAPEntry(dn=dn, attributes=data)` from octets. -/
def makeEntry (U : Unicode) (dn : Bytes) (data : List (Bytes × List Bytes)) : Except Err Entry :=
  match Server.readDn U (.bytes dn) with
  | .error e => .error (.py e)
  | .ok d => .ok ⟨d, buildAttrs U (data.map fun p => (PyStr.bytes p.1, p.2.map PyStr.bytes))⟩

/-- ldifprotocol.py:126-146 `state_IN_ENTRY` -/
def stateInEntry (U : Unicode) (p : Parser) (line : Bytes) : Except Err Parser :=
  match p.dn, p.data with
  | some dn, some data =>
    if line = [] then
      match makeEntry U dn data with
      | .error e => .error e
      | .ok e => .ok { p with mode := .waitForDn, dn := none, data := none, got := p.got ++ [.entry e] }
    else
      match parseLine line with
      | .error e => .error e
      | .ok (key, val) => .ok { p with data := some (append key val data) }
  | _, _ => .error (.py .assertionError)

/-- ldifdelta.py:47-69 `state_WAIT_FOR_CHANGETYPE` -/
def stateWaitForChangetype (p : Parser) (line : Bytes) : Except Err Parser :=
  if p.dn.isNone || p.data.isNone then .error (.py .assertionError)
  else if line = [] then .error .missingChangeType
  else
    match parseLine line with
    | .error e => .error e
    | .ok (key, val) =>
      if key ≠ ascii "changetype" then .error .missingChangeType
      else if val = ascii "modify" then .ok { p with modifications := [], mode := .waitForModSpec }
      else if val = ascii "add" then .ok { p with mode := .inAddEntry }
      else if val = ascii "delete" then .ok { p with mode := .inDelete }
      else if val = ascii "modrdn" ∨ val = ascii "moddn" then .error .notImplemented
      else .error .unknownChangeType

/-- ldifdelta.py:71-75 `MOD_SPEC_TO_DELTA` -/
def modKind (key : Bytes) : Option ModKind :=
  if key = ascii "add" then some .add
  else if key = ascii "delete" then some .delete
  else if key = ascii "replace" then some .replace
  else none

/-- ldifdelta.py:77-96 `state_WAIT_FOR_MOD_SPEC` -/
def stateWaitForModSpec (U : Unicode) (p : Parser) (line : Bytes) : Except Err Parser :=
  if line = [] then
    match p.dn with
    | none => .error (.py .assertionError)
    | some dn =>
      match Server.readDn U (.bytes dn) with
      | .error e => .error (.py e)
      | .ok d => .ok { p with
          mode := .waitForDn, dn := none, data := none, modifications := [], got := p.got ++ [.modify d p.modifications] }
  else
    match parseLine line with
    | .error e => .error e
    | .ok (key, val) =>
      match modKind key with
      | none => .error .unknownModification
      | some k => .ok { p with spec := some (k, val, []), mode := .inModSpec }

/-- ldifdelta.py:98-119 `state_IN_MOD_SPEC` -/
def stateInModSpec (p : Parser) (line : Bytes) : Except Err Parser :=
  match p.spec with
  | none => .error (.py .attributeError)
  | some (kind, attr, data) =>
    if line = [] then .error .missingEndDash
    else if line = [45] then
      .ok { p with
        modifications := p.modifications ++ [⟨kind, .bytes attr, mkSet (data.map PyStr.bytes)⟩], spec := none
        mode := .waitForModSpec }
    else
      match parseLine line with
      | .error e => .error e
      | .ok (key, val) =>
        if key ≠ attr then .error .differentAttributeType
        else .ok { p with spec := some (kind, attr, data ++ [val]) }

/-- ldifdelta.py:121-141 `state_IN_ADD_ENTRY` -/
def stateInAddEntry (U : Unicode) (p : Parser) (line : Bytes) : Except Err Parser :=
  match p.dn, p.data with
  | some dn, some data =>
    if line = [] then
      if data = [] then .error .addMissingAttributes
      else
        match makeEntry U dn data with
        | .error e => .error e
        | .ok e => .ok { p with mode := .waitForDn, dn := none, data := none, got := p.got ++ [.add e] }
    else
      match parseLine line with
      | .error e => .error e
      | .ok (key, val) => .ok { p with data := some (append key val data) }
  | _, _ => .error (.py .assertionError)

/-- ldifdelta.py:143-155 `state_IN_DELETE` -/
def stateInDelete (U : Unicode) (p : Parser) (line : Bytes) : Except Err Parser :=
  match p.dn with
  | none => .error (.py .assertionError)
  | some dn =>
    if line = [] then
      match Server.readDn U (.bytes dn) with
      | .error e => .error (.py e)
      | .ok d => .ok { p with mode := .waitForDn, dn := none, data := none, got := p.got ++ [.delete d] }
    else .error .deleteHasJunk

/-- `int(val)` for octets; see `Decimal.toInt` for the digits. -/
def readInt (val : Bytes) : Option Int :=
  match Utf8.decode (Password.rstrip (val.dropWhile Password.isSpace)) with
  | .error _ => none
  | .ok s =>
    match Decimal.toInt s with
    | .ok n => some n
    | .error _ => none

/-- ldifprotocol.py:58-62: `getattr(self, "state_" + mode)(line)` for the states after the header. -/
def state (U : Unicode) (p : Parser) (line : Bytes) : Except Err Parser :=
  match p.mode with
  | .header => .error (.py .recursionDepth)
  | .waitForDn => stateWaitForDn p line
  | .inEntry => stateInEntry U p line
  | .waitForChangetype => stateWaitForChangetype p line
  | .waitForModSpec => stateWaitForModSpec U p line
  | .inModSpec => stateInModSpec p line
  | .inAddEntry => stateInAddEntry U p line
  | .inDelete => stateInDelete U p line

/-- ldifprotocol.py:95-108 `state_HEADER`.  It calls `logicalLineReceived` again in the next state; the line is not a comment. -/
def stateHeader (U : Unicode) (p : Parser) (line : Bytes) : Except Err Parser :=
  match parseLine line with
  | .error e => .error e
  | .ok (key, val) =>
    if key ≠ ascii "version" then state U { p with mode := .waitForDn } line
    else
      match readInt val with
      | none => .error .versionNotANumber
      | some v => if 1 < v then .error .unsupportedVersion else .ok { p with mode := .waitForDn, version := some v }

/-- ldifprotocol.py:58-62 `logicalLineReceived` -/
def logicalLine (U : Unicode) (p : Parser) (line : Bytes) : Except Err Parser :=
  if [35].isPrefixOf line then .ok p
  else if p.mode = .header then stateHeader U p line
  else state U p line

/-- ldifprotocol.py:64-75 `lineReceived`.  Nothing is delivered by a call that raises: `gotEntry` is called last. -/
def lineReceived (U : Unicode) (p : Parser) (line : Bytes) : Except Err Parser :=
  match line, p.lastLine with
  | 32 :: _, none => .error .startsWithSpace
  | 32 :: r, some l => .ok { p with lastLine := some (l ++ r) }
  | line, last => do
    let p ← match last with
      | none => .ok p
      | some l => logicalLine U p l
    match line with
    | [] => do
      let p ← logicalLine U { p with lastLine := some [] } []
      return { p with lastLine := none }
    | line => return { p with lastLine := some line }

/-- twisted.protocols.basic.LineReceiver: `MAX_LENGTH`. -/
def maxLength : Nat := 16384

/-- A parser with the octets that do not yet make a line, and the exception if one was raised. -/
structure Reader where
  parser : Parser
  buffer : Bytes
  raised : Option Err
  deriving DecidableEq, Repr

/-- The octets up to each newline, and those after the last one. -/
def cut : Bytes → List Bytes × Bytes
  | [] => ([], [])
  | b :: r =>
    if b = 10 then ([] :: (cut r).1, (cut r).2)
    else
      match cut r with
      | ([], rest) => ([], b :: rest)
      | (l :: ls, rest) => ((b :: l) :: ls, rest)

/-- The loop of `LineReceiver.dataReceived` over complete lines and the octets left at the end.  `lineLengthExceeded` uses
the transport, which is `None`. -/
def drain (U : Unicode) (rest : Bytes) : Parser → List Bytes → Reader
  | p, [] => if maxLength + 1 ≤ rest.length then ⟨p, [], some (.py .attributeError)⟩ else ⟨p, rest, none⟩
  | p, l :: ls =>
    if maxLength < l.length then ⟨p, [], some (.py .attributeError)⟩
    else
      match lineReceived U p l with
      | .error e => ⟨p, [], some e⟩
      | .ok p => drain U rest p ls

/-- `LineReceiver.dataReceived`; after an exception there are no more calls. -/
def dataReceived (U : Unicode) (r : Reader) (data : Bytes) : Reader :=
  match r.raised with
  | some _ => r
  | none => drain U (cut (r.buffer ++ data)).2 r.parser (cut (r.buffer ++ data)).1

/-- A reader before the first call. -/
def fresh (isDelta : Bool) : Reader := ⟨start isDelta, [], none⟩

/-- The `while` loops of ldifdelta.py:164-168, ldiftree.py:61-65 and inmemory.py:191-195. -/
def feed (U : Unicode) (r : Reader) (chunks : List Bytes) : Reader := chunks.foldl (dataReceived U) r

/-- ldifprotocol.py:149-151 `connectionLost` -/
def connectionLost (r : Reader) : List Record × Option Err :=
  match r.raised with
  | some e => (r.parser.got, some e)
  | none => (r.parser.got, if r.parser.mode = .waitForDn then none else some .truncated)

/-- ldifdelta.py:158-171 `fromLDIFFile` and its like: what is delivered, and the exception. -/
def parse (U : Unicode) (isDelta : Bool) (chunks : List Bytes) : List Record × Option Err :=
  connectionLost (feed U (fresh isDelta) chunks)

/-- ldiftree.py:56-75 and 139-163: the parser of ldiftree.py does not look for truncation (lines 41-42). -/
def parseStored (U : Unicode) (chunks : List Bytes) : List Record × Option Err :=
  ((feed U (fresh false) chunks).parser.got, (feed U (fresh false) chunks).raised)

end Verif.Ldif
