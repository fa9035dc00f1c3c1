import Verif.Model.Text
/-
The grammar of attribute values in RFC 4514, section 3:

    string     = [ ( leadchar / pair ) [ *( stringchar / pair ) ( trailchar / pair ) ] ]
    pair       = ESC ( ESC / special / hexpair )
    special    = escaped / SPACE / SHARP / EQUALS
    escaped    = DQUOTE / PLUS / COMMA / SEMI / LANGLE / RANGLE

stringchar excludes NUL, the escaped characters and the escape character; leadchar also SPACE and SHARP, trailchar also
SPACE.  It is stated on sequences of tokens; it does not mention the code.
-/
namespace Verif.Spec.DnGrammar

/-- One element of a `string`. -/
inductive Token where
  /-- a character that stands for itself -/
  | raw (c : Char)
  /-- an escape character followed by the character meant -/
  | pair (c : Char)
  /-- an escape character followed by two hexadecimal digits: one octet -/
  | hex (a b : Char)
  deriving DecidableEq

/-- How a token is written. -/
def Token.render : Token → Str
  | .raw c => [c]
  | .pair c => ['\\', c]
  | .hex a b => ['\\', a, b]

/-- The character a token stands for; a hex pair only for an octet that is a character by itself in UTF-8. -/
def Token.value : Token → Option Char
  | .raw c => some c
  | .pair c => some c
  | .hex a b =>
    match hexValue a, hexValue b with
    | some x, some y => if 16 * x + y < 128 then some (Char.ofNat (16 * x + y)) else none
    | _, _ => none

/-- RFC 4514 `escaped`. -/
def escaped : List Char := ['"', '+', ',', ';', '<', '>']

/-- `stringchar / pair`. -/
def Token.Ok : Token → Prop
  | .raw c => c ≠ '\x00' ∧ c ∉ escaped ∧ c ≠ '\\'
  | .pair c => c = '\\' ∨ c ∈ escaped ∨ c = ' ' ∨ c = '#' ∨ c = '='
  | .hex a b => (hexValue a).isSome ∧ (hexValue b).isSome

/-- `string`. -/
structure IsString (ts : List Token) : Prop where
  each : ∀ t ∈ ts, t.Ok
  lead : ts.head? ≠ some (.raw ' ') ∧ ts.head? ≠ some (.raw '#')
  trail : ts.getLast? ≠ some (.raw ' ')

end Verif.Spec.DnGrammar
