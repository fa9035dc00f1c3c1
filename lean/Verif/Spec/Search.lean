import Verif.Spec.Message
import Verif.Spec.Match
import Verif.Spec.Server
/-
Specification of the answer to a search request: RFC 4511 section 4.5.
-/
namespace Verif.Spec

mutual
/-- A filter received in a message as a filter on entries; attribute names and values are octets. -/
def Filter.sem : Filter → Match.Filter
  | .and fs => .and (Filter.sems fs)
  | .or fs => .or (Filter.sems fs)
  | .not f => .not f.sem
  | .equal a v => .equality (.bytes a) (.bytes v)
  | .substrings a ps => .substrings (.bytes a) (ps.map fun p =>
      match p.1 with
      | .initial => .initial (.bytes p.2)
      | .any => .any (.bytes p.2)
      | .final => .final (.bytes p.2))
  | .ge a v => .greaterOrEqual (.bytes a) (.bytes v)
  | .le a v => .lessOrEqual (.bytes a) (.bytes v)
  | .present a => .present (.bytes a)
  | .approx a v => .approx (.bytes a) (.bytes v)
  | .ext r t v _ => .extensible (r.map .bytes) (t.map .bytes) (.bytes v)
def Filter.sems : List Filter → List Match.Filter
  | [] => []
  | f :: fs => f.sem :: Filter.sems fs
end

/-- The attribute list of a request names the attributes wanted; an empty one, and `*`, want all. -/
def Explicit (wanted : List Bytes) : Prop := wanted ≠ [] ∧ [0x2a] ∉ wanted

/-- The attributes shown for an entry: all that were asked for and are there, nothing else, with their values.
(An `objectClass` attribute without values may be left out.) -/
structure Shown (e : Entry) (wanted : List Bytes) (l : Attrs) : Prop where
  sound : ∀ k ws, (k, ws) ∈ l → (Explicit wanted → k ∈ wanted) ∧ ∃ vs, HasAttr e (.bytes k) vs ∧ ws.Perm (vs.map PyStr.toBytes)
  complete : ∀ a vs, HasAttr e a vs → vs ≠ [] → (Explicit wanted → ∃ k ∈ wanted, SameName a (.bytes k)) →
    ∃ k ws, (k, ws) ∈ l ∧ SameName a (.bytes k) ∧ ws.Perm (vs.map PyStr.toBytes)
  once : (Explicit wanted → wanted.Pairwise fun j k => ¬ SameName (.bytes j) (.bytes k)) →
    l.Pairwise fun p q => ¬ SameName (.bytes p.1) (.bytes q.1)

/-- The values of an attribute are all text or all octets. -/
def OneKind (vs : List PyStr) : Prop := (∀ v ∈ vs, v.isText = true) ∨ ∀ v ∈ vs, v.isText = false

/-- The entry has fewer than `2 ^ 32` attributes and values, each shorter than `2 ^ 32` octets. -/
structure Modest (e : Entry) (wanted : List Bytes) : Prop where
  dn : Fit (Utf8.encode e.dn.text)
  count : e.attrs.length < 2 ^ 32
  names : ∀ k vs, (k, vs) ∈ e.attrs → Fit k.toBytes ∧ vs.length < 2 ^ 32 ∧ ∀ v ∈ vs, Fit v.toBytes
  wanted : wanted.length < 2 ^ 32

end Verif.Spec
