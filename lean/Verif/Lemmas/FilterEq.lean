import Verif.Model.FilterText
/-
Equality of filters is decidable.
-/
namespace Verif.FilterText

mutual
def Filter.same : Filter → Filter → Bool
  | .and fs, .and gs => sames fs gs
  | .or fs, .or gs => sames fs gs
  | .not f, .not g => f.same g
  | .equality a v, .equality b w => a == b && v == w
  | .substrings a ps, .substrings b qs => a == b && ps == qs
  | .greaterOrEqual a v, .greaterOrEqual b w => a == b && v == w
  | .lessOrEqual a v, .lessOrEqual b w => a == b && v == w
  | .present a, .present b => a == b
  | .approx a v, .approx b w => a == b && v == w
  | .extensible r t v d, .extensible r' t' v' d' => r == r' && t == t' && v == v' && d == d'
  | _, _ => false
def sames : List Filter → List Filter → Bool
  | [], [] => true
  | f :: fs, g :: gs => f.same g && sames fs gs
  | _, _ => false
end

mutual
theorem Filter.same_iff (f g : Filter) : f.same g = true ↔ f = g := by
  cases f <;> cases g <;> simp [Filter.same, sames_iff, Filter.same_iff, and_assoc]
theorem sames_iff (fs gs : List Filter) : sames fs gs = true ↔ fs = gs := by
  cases fs <;> cases gs <;> simp [sames, sames_iff, Filter.same_iff]
end

instance : DecidableEq Filter := fun f g => decidable_of_iff _ (Filter.same_iff f g)

end Verif.FilterText
