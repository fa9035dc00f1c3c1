import Verif.Lemmas.Delta
/-
C22  A rejected modification leaves the entry unchanged.

The full claim fails: `not_atomic`, and `not_atomic_single` for a list of one modification.  It holds for lists that cannot
fail (`adds_replaces_partial`), for a failure of the first modification that takes away at most one value
(`first_fails_partial`); `stops_at_first_failure` says what the entry is otherwise.
-/
namespace Verif.C22
open Verif.Delta PyStr

/-- The full claim for one entry and one list. -/
def Claim (U : Unicode) (ms : List Mod) (e : Entry) : Prop :=
  ∀ e' x, patchAll U ms e = (e', some x) → e' = e

/-- The name of the entries below. -/
def dn0 : Dn.Dn := [[⟨['o'], ['x']⟩]]

/-- A modification before the one that is rejected stays in effect. -/
theorem not_atomic : ∃ ms e, ¬ Claim asciiTables ms e := by
  refine ⟨[⟨.add, .bytes [99, 110], [.bytes [98]]⟩, ⟨.delete, .bytes [115, 110], [.bytes [97]]⟩],
    ⟨dn0, [(.bytes [99, 110], [.bytes [97]])]⟩, fun h => ?_⟩
  have := h ⟨dn0, [(.bytes [99, 110], [.bytes [98], .bytes [97]])]⟩ .keyError (by decide +kernel)
  revert this
  decide

/-- The values before the one that is missing stay deleted, even if there is one modification only. -/
theorem not_atomic_single : ∃ m e, ¬ Claim asciiTables [m] e := by
  refine ⟨⟨.delete, .bytes [99, 110], [.bytes [97], .bytes [98]]⟩, ⟨dn0, [(.bytes [99, 110], [.bytes [97]])]⟩, fun h => ?_⟩
  have := h ⟨dn0, [(.bytes [99, 110], [])]⟩ .keyError (by decide +kernel)
  revert this
  decide

/-- A change that raises changes nothing. -/
theorem changeItem_error {U : Unicode} {e e' : Entry} {k : PyStr} {f : List PyStr → Py (List PyStr)} {x : PyErr}
    (h : e.changeItem U k f = (e', some x)) : e' = e := by
  unfold Entry.changeItem at h
  split at h
  · cases h; rfl
  · split at h
    · cases h; rfl
    · split at h <;> cases h; rfl

/-- A modification that raises changes nothing, unless it takes away several values. -/
theorem patch_error {U : Unicode} {m : Mod} {e e' : Entry} {x : PyErr} (h : patch U m e = (e', some x))
    (hm : m.kind = .delete → m.values.length ≤ 1) : e' = e := by
  unfold patch at h
  split at h
  · split at h
    · cases h; rfl
    · exact changeItem_error h
    · cases h
  · rename_i hk
    split at h
    · split at h <;> cases h; rfl
    · have hl := hm hk
      match hv : m.values, hl with
      | [], _ => rw [hv] at h; cases h
      | [v], _ =>
        rw [hv] at h
        simp only [removeLoop] at h
        split at h
        · cases h
        · rename_i hc; cases h; exact changeItem_error hc
  · split at h
    · split at h <;> cases h; rfl
    · cases h

/-- If the first modification is rejected and is not the deletion of several values, the entry is as it was. -/
theorem first_fails_partial {U : Unicode} {m : Mod} {ms : List Mod} {e : Entry}
    (hm : m.kind = .delete → m.values.length ≤ 1) (hf : (patch U m e).2 ≠ none) : Claim U (m :: ms) e := by
  intro e' x h
  simp only [patchAll] at h
  split at h
  · rename_i h2; rw [h2] at hf; exact absurd rfl hf
  · rename_i h2; cases h; exact patch_error h2 hm

/-- In general the entry has all modifications before the rejected one, and none after it. -/
theorem stops_at_first_failure {U : Unicode} {ms : List Mod} {e e' : Entry} {x : PyErr}
    (h : patchAll U ms e = (e', some x)) :
    ∃ before m after e1, ms = before ++ m :: after ∧ patchAll U before e = (e1, none) ∧ patch U m e1 = (e', some x) ∧
      ((m.kind = .delete → m.values.length ≤ 1) → e' = e1) := by
  induction ms generalizing e with
  | nil => cases h
  | cons m ms ih =>
    simp only [patchAll] at h
    split at h
    · rename_i e1 h1
      obtain ⟨b, m', a, e2, rfl, h2, h3, h4⟩ := ih h
      exact ⟨m :: b, m', a, e2, rfl, by simp [patchAll, h1, h2], h3, h4⟩
    · rename_i e1 y h1
      cases h
      exact ⟨[], m, ms, e, rfl, rfl, h1, fun hm => patch_error h1 hm⟩

theorem formOf_hasKey {U : Unicode} {d : Attrs} {ks : List PyStr} {vs : List PyStr}
    (h : Entry.firstOf U d ks = some vs) : ∃ k, Entry.formOf U d ks = some k := by
  induction ks with
  | nil => cases h
  | cons k ks ih =>
    simp only [Entry.firstOf, Entry.formOf] at h ⊢
    split
    · exact ⟨_, rfl⟩
    · rename_i hn; rw [hn] at h; exact ih h

/-- Additions and replacements under names that can be decoded are never rejected, so all are applied. -/
theorem adds_replaces_partial {U : Unicode} (ms : List Mod) (e : Entry)
    (h : ∀ m ∈ ms, (m.kind = .add ∧ m.key.Decodable) ∨ m.kind = .replace) : (patchAll U ms e).2 = none := by
  induction ms generalizing e with
  | nil => rfl
  | cons m ms ih =>
    have key : ∃ e1, patch U m e = (e1, none) := by
      rcases h m (by simp) with ⟨hk, hd⟩ | hk
      · obtain ⟨l, hl⟩ := getStrings_total.mp hd
        simp only [patch, hk, Entry.hasKey, Entry.get, hl, bind, Except.bind, pure, Except.pure]
        cases hf : Entry.firstOf U e.attrs l with
        | none => exact ⟨_, rfl⟩
        | some vs =>
          obtain ⟨k, hk⟩ := formOf_hasKey hf
          exact ⟨_, by simp only [Option.isSome_some, Entry.changeItem, hl, hk]; rfl⟩
      · simp only [patch, hk]
        split
        · unfold Entry.delItem
          cases e.attrs.find U m.key <;> exact ⟨_, rfl⟩
        · exact ⟨_, rfl⟩
    obtain ⟨e1, h1⟩ := key
    simp only [patchAll, h1]
    exact ih e1 (fun m' hm => h m' (by simp [hm]))

/-- The hypotheses of `first_fails_partial` hold of the deletion of a missing attribute. -/
example : (patch asciiTables ⟨.delete, .bytes [115, 110], []⟩ ⟨dn0, [(.bytes [99, 110], [.bytes [97]])]⟩).2 ≠ none := by
  decide +kernel

example : ∀ m ∈ [(⟨.add, .text ['c'], [.text ['a']]⟩ : Mod), ⟨.replace, .bytes [255], []⟩],
    (m.kind = .add ∧ m.key.Decodable) ∨ m.kind = .replace := by
  intro m hm
  simp only [List.mem_cons, List.not_mem_nil, or_false] at hm
  rcases hm with rfl | rfl
  · exact .inl ⟨rfl, ['c'], rfl⟩
  · exact .inr rfl

end Verif.C22
