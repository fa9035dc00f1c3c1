import Verif.Spec.Message
/-
When two search filters are the same filter.
-/
namespace Verif.Spec

/-- The same filter up to the order in which `and` and `or` list their parts (RFC 4511 section 4.5.1.7: they are sets).  If `mix`
holds, also up to writing `and` for `or`. -/
inductive Alike (mix : Prop) : Filter → Filter → Prop where
  | refl (f) : Alike mix f f
  | symm {f g} : Alike mix f g → Alike mix g f
  | trans {f g h} : Alike mix f g → Alike mix g h → Alike mix f h
  | and {fs gs} : fs.Perm gs → Alike mix (.and fs) (.and gs)
  | or {fs gs} : fs.Perm gs → Alike mix (.or fs) (.or gs)
  | andAt {f g} (l r) : Alike mix f g → Alike mix (.and (l ++ f :: r)) (.and (l ++ g :: r))
  | orAt {f g} (l r) : Alike mix f g → Alike mix (.or (l ++ f :: r)) (.or (l ++ g :: r))
  | not {f g} : Alike mix f g → Alike mix (.not f) (.not g)
  | mixed (fs) : mix → Alike mix (.and fs) (.or fs)

/-- What a filter that is an `and` or an `or` lists. -/
def Filter.parts : Filter → Option (List Filter)
  | .and fs => some fs
  | .or fs => some fs
  | _ => none

/-- Outside negations there is only `and` (for `true`), or only `or`. -/
inductive Only : Bool → Filter → Prop where
  | and {fs} : (∀ f ∈ fs, Only true f) → Only true (.and fs)
  | or {fs} : (∀ f ∈ fs, Only false f) → Only false (.or fs)
  | item {b f} : f.parts = none → Only b f

/-- The filter can be written. -/
def Written (f : Filter) : Prop := ∃ w, Ldap.toWire f.build = .ok w

end Verif.Spec
