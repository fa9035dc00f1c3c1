import Verif.Model.FilterText
import Verif.Model.Match
import Verif.Model.Ldap
/-
The filter objects that `parseFilter` makes, as they are sent, and as they are evaluated in the same process.

/repo/ldaptor/ldapfilter.py builds objects of /repo/ldaptor/protocols/pureldap.py with `str` fields.  What is written out is
`to_bytes` of the fields (pureber.py:213, pureldap.py:540-860); `Obj` keeps the octets.
-/
namespace Verif.FilterText
open Verif.Ldap

/-- `LDAPAttributeDescription(text)`, `LDAPAssertionValue(text)`: pureldap.py:56-62, 441-449. -/
def stringObj (s : Str) : Obj := .oct .octetString 0x04 (Utf8.encode s)

/-- ldapfilter.py:95-130: the pieces of a substring filter, pureldap.py:581-599. -/
def Piece.obj : Piece → Obj
  | .initial v => .oct .subInitial 0x80 (Utf8.encode v)
  | .any v => .oct .subAny 0x81 (Utf8.encode v)
  | .final v => .oct .subFinal 0x82 (Utf8.encode v)

mutual
/-- ldapfilter.py:60-232: what the parse actions build. -/
def Filter.obj : Filter → Obj
  | .and fs => .seq .fAnd 0x80 (Filter.objs fs)
  | .or fs => .seq .fOr 0x81 (Filter.objs fs)
  | .not f => .not 0x82 f.obj
  | .equality a v => .ava .fEq 0x83 (stringObj a) (stringObj v)
  | .substrings a ps => .substrings 0x84 (.bytes (Utf8.encode a)) (ps.map Piece.obj)
  | .greaterOrEqual a v => .ava .fGe 0x85 (stringObj a) (stringObj v)
  | .lessOrEqual a v => .ava .fLe 0x86 (stringObj a) (stringObj v)
  | .present a => .oct .fPresent 0x87 (Utf8.encode a)
  | .approx a v => .ava .fApprox 0x88 (stringObj a) (stringObj v)
  | .extensible r t v d => .mra 0x89 (r.map Utf8.encode) (t.map Utf8.encode) (Utf8.encode v) (d.map fun b => if b then 255 else 0)
def Filter.objs : List Filter → List Obj
  | [] => []
  | f :: fs => f.obj :: Filter.objs fs
end

def Piece.here : Piece → Match.Piece
  | .initial v => .initial (.text v)
  | .any v => .any (.text v)
  | .final v => .final (.text v)

mutual
/-- The same objects as arguments of `match` (entryhelpers.py:149-264) in the process that parsed the text. -/
def Filter.here : Filter → Match.Filter
  | .and fs => .and (Filter.heres fs)
  | .or fs => .or (Filter.heres fs)
  | .not f => .not f.here
  | .equality a v => .equality (.text a) (.text v)
  | .substrings a ps => .substrings (.text a) (ps.map Piece.here)
  | .greaterOrEqual a v => .greaterOrEqual (.text a) (.text v)
  | .lessOrEqual a v => .lessOrEqual (.text a) (.text v)
  | .present a => .present (.text a)
  | .approx a v => .approx (.text a) (.text v)
  | .extensible r t v _ => .extensible (r.map .text) (t.map .text) (.text v)
def Filter.heres : List Filter → List Match.Filter
  | [] => []
  | f :: fs => f.here :: Filter.heres fs
end

end Verif.FilterText
