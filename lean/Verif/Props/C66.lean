import Verif.Lemmas.FilterGrammar
import Verif.Lemmas.FilterEq
/-
C66  The filter parser accepts exactly the filter grammar, and reads each text as the grammar does.

Full statement: `parseFilter` reads a text as a filter iff the text stands for that filter by the grammar of RFC 4515
(`Spec.Denotes`, written without reference to the parser).  Proved exactly (`parse_iff_partial`) for texts without tabs and
filters in which no matching rule begins with `dn`; both limits are needed (`dn_rule_refused`, `tab_read_as_blanks`).  That
nothing outside the grammar is ever accepted holds without limits (`sound`).
-/
namespace Verif.C66
open Verif.FilterText Verif.Spec

/-- What is accepted stands, after the tabs were expanded, for the filter returned. -/
theorem sound (s : Str) (f : Filter) (h : parseFilter s = .ok f) : Denotes (expandTabs 0 s) f ∧ ClearRules f := by
  unfold parseFilter at h
  simp only at h
  split at h
  · rename_i e
    cases h
    obtain ⟨t, h1, h2⟩ := (FilterText.sound _).filter _ _ _ e
    rw [List.append_nil] at h1
    rw [h1]
    exact h2
  · cases h

/-- What stands for a filter is read as that filter. -/
theorem complete_partial (s : Str) (f : Filter) (h : Denotes s f) (hc : ClearRules f) (ht : '\t' ∉ s) :
    parseFilter s = .ok f := by
  obtain ⟨hl, hp⟩ := denotes_parse h hc
  unfold parseFilter
  rw [expandTabs_id ht]
  have := hp (bound s) [] (by unfold bound; omega)
  rw [List.append_nil] at this
  simp only [this]

/-- The parser decides the grammar. -/
theorem parse_iff_partial (s : Str) (f : Filter) (ht : '\t' ∉ s) :
    parseFilter s = .ok f ↔ Denotes s f ∧ ClearRules f := by
  constructor
  · intro h
    have := sound s f h
    rwa [expandTabs_id ht] at this
  · intro h
    exact complete_partial s f h.1 h.2 ht

/-- A text outside the grammar is refused with a parse error. -/
theorem refused (s : Str) (ht : '\t' ∉ s) (h : ∀ f, ¬ Denotes s f) : parseFilter s = .error .parseError := by
  cases hp : parseFilter s with
  | ok f => exact absurd ((parse_iff_partial s f ht).mp hp).1 (h f)
  | error e =>
    unfold parseFilter at hp
    simp only at hp
    split at hp
    · cases hp
    · cases hp; rfl

/-- No text stands for two filters. -/
theorem reading_unique_partial (s : Str) (f g : Filter) (ht : '\t' ∉ s) (hf : Denotes s f) (hf' : ClearRules f)
    (hg : Denotes s g) (hg' : ClearRules g) : f = g := by
  have h1 := complete_partial s f hf hf' ht
  rw [complete_partial s g hg hg' ht] at h1
  cases h1
  rfl

def cn : Str := "cn".toList
theorem cn_name : AttrName cn := ⟨'c', ['n'], rfl, by decide, by decide⟩

/-- A text that stands for a filter, with an escape that printing would not produce. -/
theorem sample_denotes : Denotes "(!(cn=\\41b*\\2A*))".toList (.not (.substrings cn (pieces (some "Ab".toList) ["*".toList] none))) := by
  have h : Denotes ("(".toList ++ (cn ++ "=".toList ++ "\\41b".toList ++ "*".toList ++
      ([("\\2A".toList, "*".toList)].map fun p => p.1 ++ "*".toList).flatten ++ []) ++ ")".toList)
      (.substrings cn (pieces (some "Ab".toList) ([("\\2A".toList, "*".toList)].map Prod.snd) none)) := by
    refine .item _ _ (.substrings cn "\\41b".toList [] (some "Ab".toList) none [("\\2A".toList, "*".toList)] cn_name ?_ rfl ?_
      (by decide))
    · refine ⟨by decide, ?_⟩
      exact .hex '4' '1' 4 1 _ _ (.inl (by decide)) (.inl (by decide)) (.plain 'b' _ _ (by decide) .nil)
    · intro p hp
      simp only [List.mem_cons, List.not_mem_nil, or_false] at hp
      subst hp
      exact ⟨by decide, .hex '2' 'A' 2 10 _ _ (.inl (by decide)) (.inr (.inr (by decide))) .nil⟩
  exact .not _ _ h

example : parseFilter "(!(cn=\\41b*\\2A*))".toList =
    .ok (.not (.substrings cn (pieces (some "Ab".toList) ["*".toList] none))) :=
  complete_partial _ _ sample_denotes (by simp [ClearRules]) (by decide)

/-- The full statement. -/
def Full : Prop := ∀ s f, parseFilter s = .ok f ↔ Denotes s f

/-- A matching rule whose name begins with `dn` is in the grammar but refused. -/
theorem dn_rule_refused : Denotes "(cn:dnx:=v)".toList (.extensible (some "dnx".toList) (some cn) "v".toList (some false)) ∧
    parseFilter "(cn:dnx:=v)".toList = .error .parseError := by
  constructor
  · have h : Denotes ("(".toList ++ (cn ++ flagText false ++ ruleText (some "dnx".toList) ++ ":=".toList ++ "v".toList) ++
        ")".toList) (.extensible (some "dnx".toList) (some cn) "v".toList (some false)) := by
      refine .item _ _ (.extensible cn "v".toList "v".toList false (some "dnx".toList) cn_name ?_ (by decide)
        (.plain _ _ _ (by decide) .nil))
      intro x hx; cases hx
      exact .inr ⟨'d', ['n', 'x'], rfl, by decide, by decide⟩
    exact h
  · decide +kernel

theorem full_false : ¬ Full := by
  intro H
  have := (H _ _).mpr dn_rule_refused.1
  rw [dn_rule_refused.2] at this
  cases this

/-- A tab in a value is in the grammar but read as blanks. -/
theorem tab_read_as_blanks : Denotes "(cn=a\tb)".toList (.equality cn "a\tb".toList) ∧
    parseFilter "(cn=a\tb)".toList = .ok (.equality cn "a   b".toList) := by
  constructor
  · have h : Denotes ("(".toList ++ (cn ++ "=".toList ++ "a\tb".toList) ++ ")".toList) (.equality cn "a\tb".toList) :=
      .item _ _ (.equality cn _ _ cn_name (by decide) (.plain _ _ _ (by decide) (.plain _ _ _ (by decide)
        (.plain _ _ _ (by decide) .nil))))
    exact h
  · decide +kernel

end Verif.C66
