import Verif.Model.SetPassword
/-
C51: a password change in several steps runs them in order, stops at the first failure, reports success iff all steps
succeed, and reports each later step as aborted.

`in_order`: the steps run by priority.  `all_succeed`, `first_failure`: what is done and reported.  `success_iff`: success is
reported only if all steps succeeded.  `other_failure`: an exception that is not an LDAP error (`fail.trap`) stops the steps
as well, but is handed to the caller as it is; the later steps are not reported.
-/
namespace Verif.C51
open Verif.SetPassword

variable {W E N : Type}

/-- The steps succeed one after the other and lead from one state to another. -/
inductive Succeed : List (Step W E N) → W → W → Prop where
  | nil (w) : Succeed [] w w
  | cons {s ss w w' w''} : s.run w = (w', .success) → Succeed ss w' w'' → Succeed (s :: ss) w w''

theorem insert_perm (s : Step W E N) (l : List (Step W E N)) : (SetPassword.insert s l).Perm (s :: l) := by
  induction l with
  | nil => exact .refl _
  | cons t l ih =>
    simp only [SetPassword.insert]
    split
    · exact .refl _
    · exact (List.Perm.cons t ih).trans (.swap s t l)

theorem sort_perm (l : List (Step W E N)) : (sort l).Perm l := by
  induction l with
  | nil => exact .refl _
  | cons s l ih => exact (insert_perm s _).trans (List.Perm.cons s ih)

theorem insert_sorted (s : Step W E N) (l : List (Step W E N)) (h : l.Pairwise fun a b => a.priority ≤ b.priority) :
    (SetPassword.insert s l).Pairwise fun a b => a.priority ≤ b.priority := by
  induction l with
  | nil => simp [SetPassword.insert]
  | cons t l ih =>
    rw [List.pairwise_cons] at h
    simp only [SetPassword.insert]
    split
    · rename_i hle
      refine List.pairwise_cons.mpr ⟨fun x hx => ?_, List.pairwise_cons.mpr h⟩
      rcases List.mem_cons.mp hx with rfl | hx
      · exact hle
      · exact Int.le_trans hle (h.1 x hx)
    · rename_i hle
      refine List.pairwise_cons.mpr ⟨fun x hx => ?_, ih h.2⟩
      rcases List.mem_cons.mp ((insert_perm s l).mem_iff.mp hx) with rfl | hx
      · omega
      · exact h.1 x hx

theorem insert_stable (s : Step W E N) (l : List (Step W E N)) (p : Int) (h : l.Pairwise fun a b => a.priority ≤ b.priority) :
    (SetPassword.insert s l).filter (fun x => x.priority = p) = (s :: l).filter fun x => x.priority = p := by
  induction l with
  | nil => rfl
  | cons t l ih =>
    rw [List.pairwise_cons] at h
    simp only [SetPassword.insert]
    split
    · rfl
    · rename_i hle
      have ih := ih h.2
      by_cases ht : t.priority = p
      · have hs : ¬ s.priority = p := by omega
        simp only [List.filter_cons, ht, hs] at ih ⊢
        simpa using ih
      · simp only [List.filter_cons, ht] at ih ⊢
        simpa using ih

theorem sort_sorted (l : List (Step W E N)) : (sort l).Pairwise fun a b => a.priority ≤ b.priority := by
  induction l with
  | nil => exact .nil
  | cons s l ih => exact insert_sorted s _ ih

/-- **C51** The steps are taken by priority; those of the same priority in the order they were in. -/
theorem in_order (l : List (Step W E N)) : (sort l).Perm l ∧ ((sort l).Pairwise fun a b => a.priority ≤ b.priority) ∧
    ∀ p, (sort l).filter (fun x => x.priority = p) = l.filter fun x => x.priority = p := by
  refine ⟨sort_perm l, sort_sorted l, fun p => ?_⟩
  induction l with
  | nil => rfl
  | cons s l ih =>
    show (SetPassword.insert s (sort l)).filter _ = _
    rw [insert_stable s _ p (sort_sorted l), List.filter_cons, List.filter_cons, ih]

/-- One step, when all before it succeeded. -/
theorem all_cons (rs : List (Result E)) (h : ∀ r ∈ rs, r = .success) (s : Step W E N) (ss : List (Step W E N)) (w : W) :
    all rs (s :: ss) w = match s.run w with
      | (w', .success) => all (rs ++ [.success]) ss w'
      | (w', .trapped e) => all (rs ++ [.failed e]) ss w'
      | (w', .other e) => (w', .error e) := by
  simp only [all]
  cases hl : rs.getLast? with
  | none => rfl
  | some r =>
    rw [h r (List.mem_of_getLast? hl)]
    rfl

theorem succeed_all {pre : List (Step W E N)} {w w' : W} (h : Succeed pre w w') (rs : List (Result E)) (hr : ∀ r ∈ rs, r = .success)
    (ss : List (Step W E N)) : all rs (pre ++ ss) w = all (rs ++ pre.map fun _ => .success) ss w' := by
  induction h generalizing rs with
  | nil w => simp
  | @cons s pre w w1 w2 hs _ ih =>
    rw [List.cons_append, all_cons rs hr, hs]
    show all (rs ++ [.success]) (pre ++ ss) w1 = _
    rw [ih (rs ++ [Result.success]) (fun r h => by
      rcases List.mem_append.mp h with h | h
      · exact hr r h
      · exact List.mem_singleton.mp h)]
    simp

/-- After a failure nothing is run. -/
theorem all_aborted (rs : List (Result E)) (r : Result E) (hl : rs.getLast? = some r) (hr : r.ok = false) (ss : List (Step W E N)) (w : W) :
    all rs ss w = (w, .ok (rs ++ ss.map fun _ => .aborted)) := by
  induction ss generalizing rs r with
  | nil => simp [all]
  | cons s ss ih =>
    simp only [all, hl, hr]
    rw [if_neg (by decide), ih (rs ++ [Result.aborted]) .aborted (by simp) rfl]
    simp

theorem zip_success (pre : List (Step W E N)) :
    ((pre.map (·.name)).zip (pre.map fun _ => (Result.success : Result E))).filter (fun p => !p.2.ok) = [] := by
  induction pre with
  | nil => rfl
  | cons s pre ih =>
    rw [List.map_cons, List.map_cons, List.zip_cons_cons, List.filter_cons, if_neg (by simp [Result.ok])]
    exact ih

theorem zip_aborted (post : List (Step W E N)) :
    ((post.map (·.name)).zip (post.map fun _ => (Result.aborted : Result E))).filter (fun p => !p.2.ok) = post.map fun s => (s.name, .aborted) := by
  induction post with
  | nil => rfl
  | cons s pre ih =>
    rw [List.map_cons, List.map_cons, List.zip_cons_cons, List.filter_cons, if_pos (by simp [Result.ok]), ih]
    rfl

/-- **C51** If all steps succeed, they have all been run and success is reported. -/
theorem all_succeed (steps : List (Step W E N)) (w w' : W) (h : Succeed (sort steps) w w') : setPassword steps w = (w', .success) := by
  have := succeed_all h [] (by simp) []
  rw [List.append_nil] at this
  simp only [setPassword, this, all, List.nil_append, collect, zip_success]

/-- **C51** At the first failure nothing more is run; the failed step is reported with its failure and each later one as
aborted. -/
theorem first_failure (steps : List (Step W E N)) (w w1 w' : W) (pre post : List (Step W E N)) (s : Step W E N) (e : E)
    (hs : sort steps = pre ++ s :: post) (hp : Succeed pre w w1) (hf : s.run w1 = (w', .trapped e)) :
    setPassword steps w = (w', .aggregate ((s.name, .failed e) :: post.map fun t => (t.name, .aborted))) := by
  have h1 := succeed_all hp [] (by simp) (s :: post)
  have hpre : ∀ r ∈ ([] ++ pre.map fun _ => (Result.success : Result E)), r = .success := by simp
  rw [all_cons _ hpre, hf] at h1
  have h2 := all_aborted ([] ++ pre.map (fun _ => (Result.success : Result E)) ++ [.failed e]) (.failed e) (by simp) rfl post w'
  simp only [setPassword, hs, h1, h2, collect]
  have hz : ((pre ++ s :: post).map (·.name)).zip ([] ++ pre.map (fun _ => (Result.success : Result E)) ++ [.failed e] ++ post.map fun _ => .aborted) =
      (pre.map (·.name)).zip (pre.map fun _ => .success) ++ (s.name, .failed e) :: (post.map (·.name)).zip (post.map fun _ => .aborted) := by
    rw [List.map_append, List.nil_append, List.append_assoc, List.zip_append (by simp)]
    rfl
  rw [hz, List.filter_append, zip_success, List.nil_append, List.filter_cons, if_pos (by simp [Result.ok]), zip_aborted]

/-- Another exception stops the steps, and is what the caller gets: no step is reported. -/
theorem other_failure (steps : List (Step W E N)) (w w1 w' : W) (pre post : List (Step W E N)) (s : Step W E N) (e : E)
    (hs : sort steps = pre ++ s :: post) (hp : Succeed pre w w1) (hf : s.run w1 = (w', .other e)) :
    setPassword steps w = (w', .other e) := by
  have h1 := succeed_all hp [] (by simp) (s :: post)
  have hpre : ∀ r ∈ ([] ++ pre.map fun _ => (Result.success : Result E)), r = .success := by simp
  rw [all_cons _ hpre, hf] at h1
  simp only [setPassword, hs, h1]

/-- The steps succeed, or there is a first one that does not. -/
theorem cases_of (l : List (Step W E N)) (w : W) : (∃ w', Succeed l w w') ∨
    ∃ pre s post w1 w', l = pre ++ s :: post ∧ Succeed pre w w1 ∧ ((∃ e, s.run w1 = (w', .trapped e)) ∨ ∃ e, s.run w1 = (w', .other e)) := by
  induction l generalizing w with
  | nil => exact .inl ⟨w, .nil w⟩
  | cons s l ih =>
    cases hs : s.run w with
    | mk w1 o =>
      cases o with
      | success =>
        rcases ih w1 with ⟨w', h⟩ | ⟨pre, t, post, w2, w', e, h1, h2⟩
        · exact .inl ⟨w', .cons hs h⟩
        · exact .inr ⟨s :: pre, t, post, w2, w', by rw [e]; rfl, .cons hs h1, h2⟩
      | trapped e => exact .inr ⟨[], s, l, w, w1, rfl, .nil w, .inl ⟨e, hs⟩⟩
      | other e => exact .inr ⟨[], s, l, w, w1, rfl, .nil w, .inr ⟨e, hs⟩⟩

/-- **C51** Success is reported iff all steps succeed. -/
theorem success_iff (steps : List (Step W E N)) (w : W) : (setPassword steps w).2 = .success ↔ ∃ w', Succeed (sort steps) w w' := by
  constructor
  · intro h
    rcases cases_of (sort steps) w with h' | ⟨pre, s, post, w1, w', e, h1, ⟨x, h2⟩ | ⟨x, h2⟩⟩
    · exact h'
    · rw [first_failure steps w w1 w' pre post s x e h1 h2] at h; cases h
    · rw [other_failure steps w w1 w' pre post s x e h1 h2] at h; cases h
  · rintro ⟨w', h⟩
    rw [all_succeed steps w w' h]

/-! ### Examples -/

/-- The two steps of the library, with a log of what was run; and a third one in between. -/
def ext : Step (List String) String String := ⟨"ExtendedOperation", 0, fun w => (w ++ ["ext"], .success)⟩
def samba : Step (List String) String String := ⟨"Samba", 20, fun w => (w ++ ["samba"], .success)⟩
def broken : Step (List String) String String := ⟨"Broken", 10, fun w => (w ++ ["broken"], .trapped "refused")⟩

example : setPassword [ext, samba] [] = (["ext", "samba"], .success) :=
  all_succeed [ext, samba] [] _ (.cons rfl (.cons rfl (.nil _)))

example : setPassword [broken, ext, samba] [] = (["ext", "broken"], .aggregate [("Broken", .failed "refused"), ("Samba", .aborted)]) :=
  first_failure [broken, ext, samba] [] ["ext"] _ [ext] [samba] broken "refused" rfl (.cons rfl (.nil _)) rfl

end Verif.C51
