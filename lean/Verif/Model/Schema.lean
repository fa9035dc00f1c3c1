import Verif.Model.Password
/-
Model of schema descriptions, /repo/ldaptor/schema.py.

Descriptions are given as bytes; a text is encoded first (lines 125, 373, 610, 698: `to_bytes`).  Each optional part of the
grammar is parsed by the same few lines again and again; they are written once here.
-/
namespace Verif.Schema
open Verif.Password (isSpace)

/-- `text.lstrip()` -/
def lstrip (b : Bytes) : Bytes := b.dropWhile isSpace

/-- `text.strip()` -/
def strip (b : Bytes) : Bytes := (lstrip (lstrip b).reverse).reverse

/-- The first word of a text. -/
def word (b : Bytes) : Bytes := (lstrip b).takeWhile fun c => !isSpace c

/-- schema.py:4-13 `extractWord` -/
def extractWord (text : Bytes) : Py (Bytes × Bytes) :=
  if text = [] then .ok ([], [])
  else if lstrip text = [] then .error .indexError
  else .ok (word text, lstrip ((lstrip text).dropWhile fun c => !isSpace c))

/-- schema.py:16-19 `peekWord` -/
def peekWord (text : Bytes) : Py (Option Bytes) :=
  if text = [] then .ok none
  else if lstrip text = [] then .error .indexError
  else .ok (some (word text))

/-- `end = text.index(c)`; then `text[:end]` and `text[end + 1:]`. -/
def cut (c : UInt8) : Bytes → Py (Bytes × Bytes)
  | [] => .error .valueError
  | b :: t =>
    if b = c then .ok ([], t)
    else
      match cut c t with
      | .ok (x, y) => .ok (b :: x, y)
      | .error e => .error e

/-- `text.split(b"$")` -/
def splitDollar : Bytes → List Bytes
  | [] => [[]]
  | b :: t =>
    if b = 36 then [] :: splitDollar t
    else
      match splitDollar t with
      | [] => [[b]]
      | x :: xs => (b :: x) :: xs

/-- schema.py:23-30 `_to_list` -/
def toList (text : Bytes) : Py (List Bytes) :=
  if ((splitDollar text).map strip).all (· ≠ []) then .ok ((splitDollar text).map strip) else .error .assertionError

/-- schema.py:32-46 `_strings_to_list`; the number bounds the number of strings. -/
def stringsLoop : Nat → Bytes → Py (List Bytes)
  | 0, _ => .error .recursionDepth
  | fuel + 1, text =>
    match lstrip text with
    | [] => .ok []
    | b :: t =>
      if b ≠ 39 then .error .assertionError
      else do
        let (s, rest) ← cut 39 t
        let l ← stringsLoop fuel rest
        return s :: l

def stringsToList (text : Bytes) : Py (List Bytes) := stringsLoop (text.length + 1) text

/-- `sep.join(l)` -/
def join (sep : Bytes) : List Bytes → Bytes
  | [] => []
  | [x] => x
  | x :: y :: l => x ++ sep ++ join sep (y :: l)

/-- schema.py:60-61 `_str` -/
def quoted (s : Bytes) : Bytes := [39] ++ s ++ [39]

/-- `b"( %s )" % s` -/
def paren (s : Bytes) : Bytes := [40, 32] ++ s ++ [32, 41]

/-- schema.py:48-52 `_str_list` -/
def strList (l : List Bytes) : Bytes := if l.length > 1 then paren (join [32] (l.map quoted)) else join [32] (l.map quoted)

/-- schema.py:54-58 `_list` -/
def listText (l : List Bytes) : Bytes := if l.length > 1 then paren (join [32, 36, 32] l) else join [32, 36, 32] l

/-! The parts of the grammar. -/

/-- `text = text.lstrip()`, `if peekWord(text) == b"KEYWORD": text = text[len(b"KEYWORD "):]`, and then what follows. -/
def clause {α : Type} (kw : Bytes) (f : Bytes → Py (α × Bytes)) (text : Bytes) : Py (Option α × Bytes) := do
  if (← peekWord (lstrip text)) = some kw then
    let (x, t) ← f ((lstrip text).drop (kw.length + 1))
    return (some x, t)
  else
    return (none, lstrip text)

/-- nothing follows, as in lines 168-170 -/
def nothing (text : Bytes) : Py (Unit × Bytes) := .ok ((), text)

/-- lines 158-164 -/
def oneString (text : Bytes) : Py (Bytes × Bytes) :=
  match lstrip text with
  | 39 :: t => cut 39 t
  | _ => .error .assertionError

/-- lines 139-153 -/
def names (text : Bytes) : Py (List Bytes × Bytes) :=
  match lstrip text with
  | 39 :: t => do
    let (s, rest) ← cut 39 t
    return ([s], rest)
  | 40 :: t => do
    let (s, rest) ← cut 41 (lstrip t)
    return (← stringsToList s, rest)
  | _ => .error .assertionError

/-- lines 423-425 -/
def oneWord (text : Bytes) : Py (Bytes × Bytes) := extractWord (lstrip text)

/-- lines 175-185: the items, and whether they were given in parentheses -/
def oids (text : Bytes) : Py ((Bool × List Bytes) × Bytes) :=
  match lstrip text with
  | 40 :: t => do
    let (s, rest) ← cut 41 (lstrip t)
    return ((true, ← toList s), rest)
  | t => do
    let (w, rest) ← extractWord t
    return ((false, [w]), rest)

/-- lines 128-134: the text between parentheses, its first word, and the rest -/
def opening (text : Bytes) : Py (Bytes × Bytes) :=
  if text.take 1 ≠ [40] then .error .assertionError
  else if text.getLast? ≠ some 41 then .error .assertionError
  else extractWord (lstrip ((text.drop 1).dropLast))

/-- lines 245-247 -/
def oidOk (oid : Bytes) : Bool := oid ≠ [] && oid.all fun c => c = 46 || (48 ≤ c && c ≤ 57)

def require (b : Bool) : Py Unit := if b then .ok () else .error .assertionError

/-- A keyword, in ASCII. -/
def kw (s : String) : Bytes := s.toList.map fun c => UInt8.ofNat c.toNat

/-- schema.py:64-319, the attributes.  `sup` is a list or, if `supTuple`, a tuple. -/
structure ObjectClass where
  oid : Bytes
  name : Option (List Bytes)
  desc : Option Bytes
  obsolete : Bool
  supTuple : Bool
  sup : List Bytes
  type : Bytes
  must : List Bytes
  may : List Bytes
  deriving DecidableEq, Repr

/-- Lines 181 and 185, or the empty list of line 119; `must` and `may` are extended (lines 217, 221, 232, 236) and always lists. -/
def listOf : Option (Bool × List Bytes) → List Bytes
  | some (_, l) => l
  | none => []

/-- Line 181 stores the tuple of line 30, line 185 a list. -/
def tupleOf : Option (Bool × List Bytes) → Bool
  | some (b, _) => b
  | none => false

/-- schema.py:127-249 `_parse` -/
def ObjectClass.parse (text : Bytes) : Py ObjectClass := do
  let (oid, t) ← opening text
  let (name, t) ← clause (kw "NAME") names t
  let (desc, t) ← clause (kw "DESC") oneString t
  let (obsolete, t) ← clause (kw "OBSOLETE") nothing t
  let (sup, t) ← clause (kw "SUP") oids t
  let (abstract, t) ← clause (kw "ABSTRACT") nothing t
  let (structural, t) ← clause (kw "STRUCTURAL") nothing t
  require !(structural.isSome && abstract.isSome)
  let (auxiliary, t) ← clause (kw "AUXILIARY") nothing t
  require !(auxiliary.isSome && (abstract.isSome || structural.isSome))
  let (must, t) ← clause (kw "MUST") oids t
  let (may, t) ← clause (kw "MAY") oids t
  require (lstrip t = [])
  require (oidOk oid)
  require (name ≠ some [])
  return {
    oid, name, desc, obsolete := obsolete.isSome
    supTuple := tupleOf sup, sup := listOf sup
    type := if abstract.isSome then kw "ABSTRACT" else if auxiliary.isSome then kw "AUXILIARY" else kw "STRUCTURAL"
    must := listOf must, may := listOf may }

/-- An item that is printed if there is something to print. -/
def item (k : String) (x : Option Bytes) : List Bytes :=
  match x with
  | none => []
  | some b => [kw k ++ [32] ++ b]

def flag (k : String) (b : Bool) : List Bytes := if b then [kw k] else []

/-- `b"\n        "` -/
def newline : Bytes := [10, 32, 32, 32, 32, 32, 32, 32, 32]

/-- `if self.sup:` and the like -/
def some? (l : List Bytes) : Option Bytes := if l = [] then none else some (listText l)

/-- schema.py:265-280 `toWire` -/
def ObjectClass.text (d : ObjectClass) : Bytes :=
  [40, 32] ++ d.oid ++ [32] ++
    join newline (item "NAME" (d.name.map strList) ++ item "DESC" (d.desc.map quoted) ++ flag "OBSOLETE" d.obsolete ++
      item "SUP" (some? d.sup) ++ [d.type] ++ item "MUST" (some? d.must) ++ item "MAY" (some? d.may)) ++ [32, 41]

/-- schema.py:322-590, the attributes.  The value of an extension is a string or a tuple of strings. -/
structure AttributeType where
  oid : Bytes
  name : Option (List Bytes)
  desc : Option Bytes
  obsolete : Bool
  sup : Option Bytes
  equality : Option Bytes
  ordering : Option Bytes
  substr : Option Bytes
  syntax' : Option Bytes
  singleValue : Bool
  collective : Bool
  noUserModification : Bool
  usage : Option Bytes
  extensions : List (Bytes × (Bytes ⊕ List Bytes))
  deriving DecidableEq, Repr

/-- lines 492-506: the value of an extension -/
def extension (text : Bytes) : Py ((Bytes ⊕ List Bytes) × Bytes) :=
  match lstrip text with
  | 39 :: t => do
    let (s, rest) ← cut 39 t
    return (.inl s, rest)
  | 40 :: t => do
    let (s, rest) ← cut 41 (lstrip t)
    return (.inr (← stringsToList s), rest)
  | _ => .error .assertionError

/-- lines 484-510; the number bounds the number of extensions -/
def extensionLoop : Nat → Bytes → Py (List (Bytes × (Bytes ⊕ List Bytes)))
  | 0, _ => .error .recursionDepth
  | fuel + 1, text => do
    match ← peekWord (lstrip text) with
    | none => .ok []
    | some w =>
      if w.take 2 = kw "X-" then
        let (v, rest) ← extension ((lstrip text).drop (w.length + 1))
        let l ← extensionLoop fuel rest
        return (w, v) :: l
      else .error .assertionError

def usages : List Bytes := [kw "userApplications", kw "directoryOperation", kw "distributedOperation", kw "dSAOperation"]

/-- lines 523-529 -/
def usageOk : Option Bytes → Bool
  | none => true
  | some u => u ∈ usages

/-- schema.py:375-532 `_parse` -/
def AttributeType.parse (text : Bytes) : Py AttributeType := do
  let (oid, t) ← opening text
  let (name, t) ← clause (kw "NAME") names t
  let (desc, t) ← clause (kw "DESC") oneString t
  let (obsolete, t) ← clause (kw "OBSOLETE") nothing t
  let (sup, t) ← clause (kw "SUP") oneWord t
  let (equality, t) ← clause (kw "EQUALITY") oneWord t
  let (ordering, t) ← clause (kw "ORDERING") oneWord t
  let (substr, t) ← clause (kw "SUBSTR") oneWord t
  let (syntax', t) ← clause (kw "SYNTAX") oneWord t
  let (singleValue, t) ← clause (kw "SINGLE-VALUE") nothing t
  let (collective, t) ← clause (kw "COLLECTIVE") nothing t
  let (noUserModification, t) ← clause (kw "NO-USER-MODIFICATION") nothing t
  let (usage, t) ← clause (kw "USAGE") oneWord t
  let exts ← extensionLoop (t.length + 1) t
  require (oidOk oid)
  require (name ≠ some [])
  require (usageOk usage)
  return {
    oid, name, desc, obsolete := obsolete.isSome, sup, equality, ordering, substr, syntax'
    singleValue := singleValue.isSome, collective := collective.isSome, noUserModification := noUserModification.isSome
    usage, extensions := exts }

/-- lines 579-589 -/
def extensionText : Bytes × (Bytes ⊕ List Bytes) → Bytes
  | (w, .inl s) => w ++ [32] ++ quoted s
  | (w, .inr l) => w ++ [32] ++ paren (join [32] (l.map quoted))

/-- schema.py:553-590 `toWire` -/
def AttributeType.text (d : AttributeType) : Bytes :=
  [40, 32] ++ d.oid ++ [32] ++
    join newline (item "NAME" (d.name.map strList) ++ item "DESC" (d.desc.map quoted) ++ flag "OBSOLETE" d.obsolete ++
      item "SUP" d.sup ++ item "EQUALITY" d.equality ++ item "ORDERING" d.ordering ++ item "SUBSTR" d.substr ++
      item "SYNTAX" d.syntax' ++ flag "SINGLE-VALUE" d.singleValue ++ flag "COLLECTIVE" d.collective ++
      flag "NO-USER-MODIFICATION" d.noUserModification ++ item "USAGE" d.usage ++ d.extensions.map extensionText) ++ [32, 41]

/-- schema.py:593-674 -/
structure SyntaxDescription where
  oid : Bytes
  desc : Option Bytes
  binaryTransferRequired : Bool
  humanReadable : Bool
  deriving DecidableEq, Repr

/-- lines 636-638, 643-645: what follows the keyword is skipped without a look -/
def skip (n : Nat) (text : Bytes) : Py (Unit × Bytes) := .ok ((), text.drop n)

/-- schema.py:612-653 `_parse` -/
def SyntaxDescription.parse (text : Bytes) : Py SyntaxDescription := do
  let (oid, t) ← opening text
  let (desc, t) ← clause (kw "DESC") oneString t
  let (binary, t) ← clause (kw "X-BINARY-TRANSFER-REQUIRED") (skip 7) t
  let (unreadable, t) ← clause (kw "X-NOT-HUMAN-READABLE") (skip 7) t
  require (lstrip t = [])
  require (oidOk oid)
  return { oid, desc, binaryTransferRequired := binary.isSome, humanReadable := !unreadable.isSome }

/-- schema.py:655-665 `toWire` -/
def SyntaxDescription.text (d : SyntaxDescription) : Bytes :=
  [40, 32] ++ join [32] ([d.oid] ++ item "DESC" (d.desc.map quoted) ++
    flag "X-BINARY-TRANSFER-REQUIRED 'TRUE'" d.binaryTransferRequired ++ flag "X-NOT-HUMAN-READABLE 'TRUE'" !d.humanReadable) ++ [32, 41]

/-- schema.py:677-784 -/
structure MatchingRule where
  oid : Bytes
  name : Option (List Bytes)
  desc : Option Bytes
  obsolete : Bool
  syntax' : Bytes
  deriving DecidableEq, Repr

/-- schema.py:700-762 `_parse` -/
def MatchingRule.parse (text : Bytes) : Py MatchingRule := do
  let (oid, t) ← opening text
  let (name, t) ← clause (kw "NAME") names t
  let (desc, t) ← clause (kw "DESC") oneString t
  let (obsolete, t) ← clause (kw "OBSOLETE") nothing t
  let (syntax', t) ← clause (kw "SYNTAX") oneWord t
  require (lstrip t = [])
  require (oidOk oid)
  match syntax' with
  | none => .error .assertionError
  | some s =>
    require (s ≠ [])
    return { oid, name, desc, obsolete := obsolete.isSome, syntax' := s }

/-- schema.py:764-775 `toWire` -/
def MatchingRule.text (d : MatchingRule) : Bytes :=
  [40, 32] ++ join [32] ([d.oid] ++ item "NAME" (d.name.map strList) ++ item "DESC" (d.desc.map quoted) ++
    flag "OBSOLETE" d.obsolete ++ item "SYNTAX" (some d.syntax')) ++ [32, 41]

end Verif.Schema
