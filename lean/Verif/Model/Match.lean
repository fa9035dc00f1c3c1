import Verif.Model.Entry
/-
Model of filter evaluation, /repo/ldaptor/entryhelpers.py:149-244.
-/
namespace Verif.Match

/-- pureldap.py:570-589: one element of a substring filter. -/
inductive Piece where
  | initial (v : PyStr)
  | any (v : PyStr)
  | final (v : PyStr)
  deriving DecidableEq, Repr

def Piece.value : Piece → PyStr
  | .initial v => v
  | .any v => v
  | .final v => v

/-- pureldap.py:518-870: filter objects, with fields of either kind of string (text if parsed from text, octets if
received). -/
inductive Filter where
  | and (fs : List Filter)
  | or (fs : List Filter)
  | not (f : Filter)
  | equality (attr value : PyStr)
  | substrings (type : PyStr) (pieces : List Piece)
  | greaterOrEqual (attr value : PyStr)
  | lessOrEqual (attr value : PyStr)
  | present (attr : PyStr)
  | approx (attr value : PyStr)
  | extensible (rule type : Option PyStr) (value : PyStr)
  deriving Repr

/-- entryhelpers.py:170-178: keep the values that begin with the piece, and cut it off. -/
def stripInitial (U : Unicode) (p : PyStr) (vs : List PyStr) : Py (List PyStr) := do
  let vs ← filterPy (fun x => (x.lower U).startsWith (p.lower U)) vs
  return vs.map (PyStr.dropFront p.len)

/-- entryhelpers.py:180-188: keep the values that end with the piece; what is cut off has the length of the filter's
*first* piece. -/
def stripFinal (U : Unicode) (first p : PyStr) (vs : List PyStr) : Py (List PyStr) := do
  let vs ← filterPy (fun x => (x.lower U).endsWith (p.lower U)) vs
  return vs.map (PyStr.dropBack first.len)

/-- entryhelpers.py:192-196: the values that contain the piece, each from its first occurrence on. -/
def fromAny (U : Unicode) (p : PyStr) : List PyStr → Py (List PyStr)
  | [] => .ok []
  | x :: vs => do
    let i ← (x.lower U).find (p.lower U)
    let r ← fromAny U p vs
    match i with
    | some i => return x.dropFront i :: r
    | none => return r

/-- entryhelpers.py:190-201: the loop over the remaining pieces, and the verdict. -/
def anyLoop (U : Unicode) : List Piece → List PyStr → Py Bool
  | [], vs => .ok (!vs.isEmpty)
  | _ :: _, [] => .ok false
  | .any p :: ps, v :: vs => do
    let r ← fromAny U p (v :: vs)
    anyLoop U ps r
  | _ :: _, _ :: _ => .error .assertionError

/-- entryhelpers.py:180-201, after the initial piece: `pieces` is `filter.substrings`, `rest` is `substrings`. -/
def matchRest (U : Unicode) (pieces rest : List Piece) (vs : List PyStr) : Py Bool :=
  match rest, pieces.head?, pieces.getLast? with
  | _ :: _, some first, some (.final p) => do
    let vs ← stripFinal U first.value p vs
    anyLoop U rest.dropLast vs
  | _, _, _ => anyLoop U rest vs

/-- entryhelpers.py:167-201: the substring branch, on the values of the attribute. -/
def matchPieces (U : Unicode) (pieces : List Piece) (vs : List PyStr) : Py Bool :=
  match pieces with
  | .initial p :: rest => do
    let vs ← stripInitial U p vs
    matchRest U pieces rest vs
  | _ => matchRest U pieces pieces vs

/-- `value in [val.lower() for val in vs]` -/
def inLower (U : Unicode) (x : PyStr) (vs : List PyStr) : Bool := vs.any fun v => v.lower U = x

/-- entryhelpers.py:235-239: whether some attribute of the DN has the asserted (lower-cased) value.  DN attribute types
and values are text. -/
def inDn (U : Unicode) (attr x : PyStr) (dn : Dn.Dn) : Bool :=
  dn.any fun rdn => rdn.any fun av => decide (attr = .text av.attributeType) && decide (x = .text (U.lower av.value))

mutual
/-- entryhelpers.py:150-244 `MatchMixin.match` -/
def eval (U : Unicode) (e : Entry) : Filter → Py Bool
  | .present a => do
    let ks ← a.getStrings
    anyPy (fun k => e.hasKey U k) ks
  | .equality a v => do
    let forms ← (v.lower U).getStrings
    anyPy (fun x => do
      let r ← e.get U a
      return inLower U x (r.getD [])) forms
  | .substrings a ps => do
    let r ← e.get U a
    match r with
    | none => return false
    | some vs => matchPieces U ps vs
  | .greaterOrEqual a v => do
    let r ← e.get U a
    anyPy (fun x => v.le x) (r.getD [])
  | .lessOrEqual a v => do
    let r ← e.get U a
    anyPy (fun x => x.le v) (r.getD [])
  | .and fs => evalAll U e fs
  | .or fs => evalAny U e fs
  | .not f => do
    let b ← eval U e f
    return !b
  | .extensible none none _ => .error .attributeError
  | .extensible none (some a) v => do
    let r ← e.get U a
    if inLower U (v.lower U) (r.getD []) then return true
    else return inDn U a (v.lower U) e.dn
  | .extensible (some _) _ _ => .error .notImplemented
  | .approx _ _ => .error .notImplemented
/-- entryhelpers.py:216-220 -/
def evalAll (U : Unicode) (e : Entry) : List Filter → Py Bool
  | [] => .ok true
  | f :: fs => do
    let b ← eval U e f
    if b then evalAll U e fs else return false
/-- entryhelpers.py:221-225 -/
def evalAny (U : Unicode) (e : Entry) : List Filter → Py Bool
  | [] => .ok false
  | f :: fs => do
    let b ← eval U e f
    if b then return true else evalAny U e fs
end

end Verif.Match
