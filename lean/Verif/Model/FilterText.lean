import Verif.Model.Text
/-
Model of the text form of search filters: the printers in /repo/ldaptor/protocols/pureldap.py and the parser in
/repo/ldaptor/ldapfilter.py.

The parser is written with pyparsing.  The model gives the meaning of the combinators used there: `+` is sequence, `|`
is ordered choice without backtracking into an alternative that has succeeded, `^` takes the longest match and among
equally long ones the first, `Optional`, `ZeroOrMore` and `OneOrMore` are greedy.  White space is never skipped
(`leaveWhitespace` on every level).  pyparsing replaces tabs by blanks before parsing (`parseString` calls
`str.expandtabs`), and so does the model.  Python's recursion limit is not modelled.

Filters have `str` fields, as built by the parser or by an application; a filter decoded from the wire has `bytes`
fields and cannot be printed (`asText` raises `TypeError`).
-/
namespace Verif.FilterText

/-- One `str.replace(c, r)` with a single character `c`. -/
def replaceChar (c : Char) (r : Str) (s : Str) : Str := s.flatMap fun x => if x = c then r else [x]

/-- pureldap.py:35-41 `escape`. -/
def escape (s : Str) : Str :=
  let s := replaceChar '\\' ['\\', '5', 'c'] s
  let s := replaceChar '*' ['\\', '2', 'a'] s
  let s := replaceChar '(' ['\\', '2', '8'] s
  let s := replaceChar ')' ['\\', '2', '9'] s
  replaceChar '\x00' ['\\', '0', '0'] s

/-- A lower-case hexadecimal digit. -/
def hexLower (n : Nat) : Char := if n < 10 then Char.ofNat (n + '0'.toNat) else Char.ofNat (n - 10 + 'a'.toNat)

/-- `"%x" % n` without padding, most significant digit first; `fuel` bounds the number of digits. -/
def hexDigits : Nat → Nat → Str
  | 0, _ => []
  | fuel + 1, n => if n < 16 then [hexLower n] else hexDigits fuel (n / 16) ++ [hexLower (n % 16)]

/-- `f"{n:02x}"`; eight digits are enough for a code point. -/
def hex02 (n : Nat) : Str := if n < 16 then ['0', hexLower n] else hexDigits 8 n

/-- pureldap.py:44-45 `binary_escape`. -/
def binaryEscape (s : Str) : Str := s.flatMap fun c => '\\' :: hex02 c.toNat

/-- string.printable -/
def printable (c : Char) : Bool := (32 ≤ c.toNat && c.toNat ≤ 126) || (9 ≤ c.toNat && c.toNat ≤ 13)

/-- pureldap.py:48-53 `smart_escape` with the default threshold; the quotient of floats is compared exactly. -/
def smartEscape (s : Str) : Py Str :=
  if s.length = 0 then .error .zeroDivision
  else if 10 * s.countP (fun c => !printable c) > 3 * s.length then .ok (binaryEscape s)
  else .ok (escape s)

/-- pureldap.py:581-599: the pieces of a substring filter. -/
inductive Piece where
  | initial (v : Str)
  | any (v : Str)
  | final (v : Str)
  deriving DecidableEq, Repr

/-- pureldap.py:518-870: filter objects with `str` fields. -/
inductive Filter where
  | and (fs : List Filter)
  | or (fs : List Filter)
  | not (f : Filter)
  | equality (attr value : Str)
  | substrings (type : Str) (pieces : List Piece)
  | greaterOrEqual (attr value : Str)
  | lessOrEqual (attr value : Str)
  | present (attr : Str)
  | approx (attr value : Str)
  | extensible (rule type : Option Str) (value : Str) (dn : Option Bool)
  deriving Repr

/-- pureldap.py:650-676: the loop of `LDAPFilter_substrings.asText`; the state is `initial`, `any`, `final`. -/
def substringsLoop (esc : Str → Str) : List Piece → Option Str → List Str → Option Str → Py Str
  | [], i, a, f => .ok (joinWith ['*'] ([i.getD []] ++ a ++ [f.getD []]))
  | .initial v :: ps, i, a, f =>
    if i.isSome || !a.isEmpty || f.isSome then .error .assertionError else substringsLoop esc ps (some (esc v)) a f
  | .final v :: ps, i, a, f => if f.isSome then .error .assertionError else substringsLoop esc ps i a (some (esc v))
  | .any v :: ps, i, a, f => if f.isSome then .error .assertionError else substringsLoop esc ps i (a ++ [esc v]) f

mutual
/-- pureldap.py:521-870: `asText`; `esc` is the escaper. -/
def Filter.asText (esc : Str → Str) : Filter → Py Str
  | .and fs => do
    let t ← Filter.asTexts esc fs
    return '(' :: '&' :: (t ++ [')'])
  | .or fs => do
    let t ← Filter.asTexts esc fs
    return '(' :: '|' :: (t ++ [')'])
  | .not f => do
    let t ← Filter.asText esc f
    return '(' :: '!' :: (t ++ [')'])
  | .equality a v => .ok ('(' :: (a ++ '=' :: (esc v ++ [')'])))
  | .substrings t ps => do
    let p ← substringsLoop esc ps none [] none
    return '(' :: (t ++ '=' :: (p ++ [')']))
  | .greaterOrEqual a v => .ok ('(' :: (a ++ '>' :: '=' :: (esc v ++ [')'])))
  | .lessOrEqual a v => .ok ('(' :: (a ++ '<' :: '=' :: (esc v ++ [')'])))
  | .present a => .ok ('(' :: (a ++ ['=', '*', ')']))
  | .approx a v => .ok ('(' :: (a ++ '~' :: '=' :: (esc v ++ [')'])))
  | .extensible r t v d =>
    .ok ('(' :: (t.getD [] ++ (if d = some true then [':', 'd', 'n'] else []) ++
      (match r with
        | some r => ':' :: r
        | none => []) ++ ':' :: '=' :: (esc v ++ [')'])))
/-- `"".join([x.asText() for x in self])` -/
def Filter.asTexts (esc : Str → Str) : List Filter → Py Str
  | [] => .ok []
  | f :: fs => do
    let t ← Filter.asText esc f
    let ts ← Filter.asTexts esc fs
    return t ++ ts
end

/-! ### The parser -/

/-- A parser: the result and the rest of the input, or failure. -/
abbrev Parser (α : Type) := Str → Option (α × Str)

/-- ASCII letters, `string.ascii_letters`. -/
def isLetter (c : Char) : Bool := ('a' ≤ c && c ≤ 'z') || ('A' ≤ c && c ≤ 'Z')
/-- `string.digits` -/
def isDigit (c : Char) : Bool := '0' ≤ c && c ≤ '9'
/-- ldapfilter.py:77-80, 146: the characters of an attribute name or a key string after the first. -/
def isAttrChar (c : Char) : Bool := isLetter c || isDigit c || c == ';' || c == '-'

/-- ldapfilter.py:77-82, 146-147: `attr` and `keystring`. -/
def pAttr : Parser Str
  | c :: s => if isLetter c then some (c :: s.takeWhile isAttrChar, s.dropWhile isAttrChar) else none
  | [] => none

/-- ldapfilter.py:95: the characters that end a value. -/
def valueStops : List Char := ['*', '(', ')', '\\', '\x00']

/-- ldapfilter.py:83-95: zero or more plain or escaped characters. -/
def pChars : Str → Str × Str
  | [] => ([], [])
  | '\\' :: h :: l :: s =>
    match hexValue h, hexValue l with
    | some a, some b => (Char.ofNat (16 * a + b) :: (pChars s).1, (pChars s).2)
    | _, _ => ([], '\\' :: h :: l :: s)
  | c :: s => if c ∈ valueStops then ([], c :: s) else (c :: (pChars s).1, (pChars s).2)

/-- ldapfilter.py:95 `value`: at least one character. -/
def pValue : Parser Str := fun s =>
  match pChars s with
  | ([], _) => none
  | (v, r) => some (v, r)

/-- A `Literal`. -/
def pLit : Str → Str → Option Str
  | [], s => some s
  | c :: cs, d :: s => if c = d then pLit cs s else none
  | _ :: _, [] => none

/-- ldapfilter.py:97-106 `filtertype`. -/
def pFilterType : Parser (Str → Str → Filter) := fun s =>
  match pLit ['='] s with
  | some r => some (.equality, r)
  | none =>
    match pLit ['~', '='] s with
    | some r => some (.approx, r)
    | none =>
      match pLit ['>', '='] s with
      | some r => some (.greaterOrEqual, r)
      | none =>
        match pLit ['<', '='] s with
        | some r => some (.lessOrEqual, r)
        | none => none

/-- ldapfilter.py:107-120 `simple`. -/
def pSimple : Parser Filter := fun s => do
  let (a, s) ← pAttr s
  let (mk, s) ← pFilterType s
  let (v, s) ← pValue s
  return (mk a v, s)

/-- ldapfilter.py:121-122 `present`. -/
def pPresent : Parser Filter := fun s => do
  let (a, s) ← pAttr s
  let s ← pLit ['=', '*'] s
  return (.present a, s)

/-- ldapfilter.py:126-127 `any_value`. -/
def pAnyValue : Parser Str := fun s => do
  let (v, s) ← pValue s
  let s ← pLit ['*'] s
  return (v, s)

/-- `ZeroOrMore(any_value)`; the first argument bounds the number of repetitions. -/
def pAnyValues : Nat → Str → List Str × Str
  | 0, s => ([], s)
  | n + 1, s =>
    match pAnyValue s with
    | some (v, r) => (v :: (pAnyValues n r).1, (pAnyValues n r).2)
    | none => ([], s)

/-- `Optional(p)` -/
def pOpt {α : Type} (p : Parser α) (s : Str) : Option α × Str :=
  match p s with
  | some (a, r) => (some a, r)
  | none => (none, s)

/-- ldapfilter.py:123-125, 128-144 `substring`. -/
def pSubstring : Parser Filter := fun s => do
  let (a, s) ← pAttr s
  let s ← pLit ['='] s
  let (i, s) := pOpt pValue s
  let s ← pLit ['*'] s
  let (as, s) := pAnyValues s.length s
  let (f, s) := pOpt pValue s
  return (.substrings a ((i.map Piece.initial).toList ++ as.map Piece.any ++ (f.map Piece.final).toList), s)

/-- `Word(string.digits)` -/
def pDigits : Parser Str := fun s =>
  match s.takeWhile isDigit with
  | [] => none
  | ds => some (ds, s.dropWhile isDigit)

/-- `ZeroOrMore("." + Word(string.digits))`, combined. -/
def pDotted : Nat → Str → Str × Str
  | 0, s => ([], s)
  | n + 1, s =>
    match s with
    | '.' :: r =>
      match pDigits r with
      | some (ds, r) => ('.' :: ds ++ (pDotted n r).1, (pDotted n r).2)
      | none => ([], s)
    | _ => ([], s)

/-- ldapfilter.py:148-149 `numericoid`. -/
def pNumericOid : Parser Str := fun s => do
  let (ds, s) ← pDigits s
  let (r, s) := pDotted s.length s
  return (ds ++ r, s)

/-- ldapfilter.py:150-153 `oid`, `matchingrule`. -/
def pMatchingRule : Parser Str := fun s =>
  match pNumericOid s with
  | some r => some r
  | none => pAttr s

/-- ldapfilter.py:155-162 `extensible_dn`. -/
def pDnFlag (s : Str) : Bool × Str :=
  match pLit [':', 'd', 'n'] s with
  | some r => (true, r)
  | none => (false, s)

/-- ldapfilter.py:164-174, 187 `Suppress(":") + matchingrule`. -/
def pColonRule : Parser Str := fun s => do
  let s ← pLit [':'] s
  pMatchingRule s

/-- ldapfilter.py:176-184 `extensible_attr`. -/
def pExtAttr : Parser Filter := fun s => do
  let (a, s) ← pAttr s
  let (d, s) := pDnFlag s
  let (r, s) := pOpt pColonRule s
  let s ← pLit [':', '='] s
  let (v, s) ← pValue s
  return (.extensible r (some a) v (some d), s)

/-- ldapfilter.py:186-196 `extensible_noattr`. -/
def pExtNoAttr : Parser Filter := fun s => do
  let (d, s) := pDnFlag s
  let (r, s) ← pColonRule s
  let s ← pLit [':', '='] s
  let (v, s) ← pValue s
  return (.extensible (some r) none v (some d), s)

/-- ldapfilter.py:198-209 `extensible`. -/
def pExtensible : Parser Filter := fun s =>
  match pExtAttr s with
  | some r => some r
  | none => pExtNoAttr s

/-- One step of `^`: the later alternative only wins if it leaves less input. -/
def longer {α : Type} : Option (α × Str) → Option (α × Str) → Option (α × Str)
  | none, b => b
  | some a, none => some a
  | some a, some b => if b.2.length < a.2.length then some b else some a

/-- ldapfilter.py:210-212 `item = simple ^ present ^ substring ^ extensible`. -/
def pItem : Parser Filter := fun s =>
  longer (longer (longer (pSimple s) (pPresent s)) (pSubstring s)) (pExtensible s)

mutual
/-- ldapfilter.py:76, 225-232 `filter_`; the first argument bounds the depth of the recursion. -/
def pFilter : Nat → Parser Filter
  | 0, _ => none
  | n + 1, s =>
    match pLit ['('] s with
    | none => none
    | some s =>
      match pComp n s with
      | none => none
      | some (f, s) =>
        match pLit [')'] s with
        | none => none
        | some s => some (f, s)
/-- ldapfilter.py:223-224 `filtercomp = and_ | or_ | not_ | item`. -/
def pComp : Nat → Parser Filter
  | 0, _ => none
  | n + 1, s =>
    match pAnd n s with
    | some r => some r
    | none =>
      match pOr n s with
      | some r => some r
      | none =>
        match pNot n s with
        | some r => some r
        | none => pItem s
/-- ldapfilter.py:220-222 `and_`. -/
def pAnd : Nat → Parser Filter
  | 0, _ => none
  | n + 1, s =>
    match pLit ['&'] s with
    | none => none
    | some s =>
      match pFilters n s with
      | ([], _) => none
      | (fs, r) => some (.and fs, r)
/-- ldapfilter.py:217-219 `or_`. -/
def pOr : Nat → Parser Filter
  | 0, _ => none
  | n + 1, s =>
    match pLit ['|'] s with
    | none => none
    | some s =>
      match pFilters n s with
      | ([], _) => none
      | (fs, r) => some (.or fs, r)
/-- ldapfilter.py:213-215 `not_`. -/
def pNot : Nat → Parser Filter
  | 0, _ => none
  | n + 1, s =>
    match pLit ['!'] s with
    | none => none
    | some s =>
      match pFilter n s with
      | none => none
      | some (f, r) => some (.not f, r)
/-- ldapfilter.py:216 `filterlist = OneOrMore(filter_)`; an empty list means failure. -/
def pFilters : Nat → Str → List Filter × Str
  | 0, s => ([], s)
  | n + 1, s =>
    match pFilter n s with
    | none => ([], s)
    | some (f, r) => (f :: (pFilters n r).1, (pFilters n r).2)
end

/-- `str.expandtabs()`; the first argument is the current column. -/
def expandTabs : Nat → Str → Str
  | _, [] => []
  | k, '\t' :: s => List.replicate (8 - k % 8) ' ' ++ expandTabs (k + (8 - k % 8)) s
  | k, c :: s => if c = '\n' ∨ c = '\r' then c :: expandTabs 0 s else c :: expandTabs (k + 1) s

/-- The recursion bound used for an input: no parse of it goes deeper (`pFilter_bound`). -/
def bound (s : Str) : Nat := 4 * s.length + 4

/-- ldapfilter.py:234-252: `toplevel` and `parseFilter`. -/
def parseFilter (s : Str) : Py Filter :=
  let s := expandTabs 0 s
  match pFilter (bound s) s with
  | some (f, []) => .ok f
  | _ => .error .parseError

end Verif.FilterText
