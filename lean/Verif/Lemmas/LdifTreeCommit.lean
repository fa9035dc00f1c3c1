import Verif.Model.LdifTreeCommit
import Verif.Lemmas.LdifTreeAdd
/-
Facts about the commit of an entry on disk.
-/
namespace Verif.LdifTree
open Verif.Spec
open Verif.Server (Env)

/-! Sequences of system calls of which some raise. -/

theorem torn_stopped (fs : Fs) (n : Nat) (s : Step) (l : List Step) : Stopped fs (s :: l) (torn fs n s) := by
  cases s with
  | write p c =>
    cases c with
    | error e => exact .here _ _
    | ok b =>
      cases h : apply fs (.write p (.ok (b.take n))) with
      | ok fs' =>
        have e : torn fs n (.write p (.ok b)) = fs' := by simp only [torn, h]
        rw [e]
        exact .torn n l h
      | error e =>
        have e : torn fs n (.write p (.ok b)) = fs := by simp only [torn, h]
        rw [e]
        exact .here _ _
  | _ => exact .here _ _

/-- Wherever they end, it is a state in which they can stop. -/
theorem exec_stopped (fs : Fs) (faults : List (Option Nat)) (l : List Step) : Stopped fs l (exec fs faults l).1 := by
  induction l generalizing fs faults with
  | nil => unfold exec; exact .here _ _
  | cons s l ih =>
    unfold exec
    split
    · contradiction
    · rename_i h
      cases h
      exact torn_stopped _ _ _ _
    · rename_i h
      cases h
      split
      · exact .later ‹_› (ih _ _)
      · exact .here _ _
    · rename_i h
      cases h
      split
      · exact .later ‹_› (ih _ _)
      · exact .here _ _

/-- They are complete only if none raised. -/
theorem exec_true {fs fs' : Fs} {faults : List (Option Nat)} {l : List Step} (h : exec fs faults l = (fs', true)) :
    run fs l = .ok fs' := by
  induction l generalizing fs faults with
  | nil => unfold exec at h; cases h; rfl
  | cons s l ih =>
    unfold exec at h
    split at h
    · contradiction
    · cases h
    all_goals
      rename_i e
      cases e
      split at h
      · rename_i e'
        simp only [run, e', bind, Except.bind]
        exact ih h
      · cases h

theorem exec_none {fs fs' : Fs} {l : List Step} (h : run fs l = .ok fs') : exec fs [] l = (fs', true) := by
  induction l generalizing fs with
  | nil => cases h; rfl
  | cons s l ih =>
    simp only [run, bind, Except.bind] at h
    unfold exec
    split at h
    · cases h
    · rename_i e
      simp only [e]
      exact ih h

/-- If they were not completed, the last one was not done. -/
theorem exec_false {fs fs' : Fs} {faults : List (Option Nat)} {l : List Step} {s t : Str}
    (h : exec fs faults (l ++ [.rename s t]) = (fs', false)) : Stopped fs l fs' := by
  induction l generalizing fs faults with
  | nil =>
    simp only [List.nil_append] at h
    unfold exec at h
    split at h
    · contradiction
    · rename_i e
      cases e; cases h
      exact .here _ _
    all_goals
      rename_i e
      cases e
      split at h
      · rename_i fs1 _
        have : ∀ f, exec fs1 f [] = (fs1, true) := by intro f; unfold exec; rfl
        rw [this] at h
        cases h
      · cases h
        exact .here _ _
  | cons x l ih =>
    rw [List.cons_append] at h
    unfold exec at h
    split at h
    · contradiction
    · rename_i e
      cases e; cases h
      exact torn_stopped _ _ _ _
    all_goals
      rename_i e
      cases e
      split at h
      · exact .later ‹_› (ih h)
      · cases h
        exact .here _ _

/-- Until the rename, nothing changes but the temporary file. -/
theorem stopped_before {fs fs' : Fs} {dir n uuid : Str} {D : Path} {content : Py Bytes} (hd : DirAt fs dir D)
    (hn : '/' ∉ n) (hu : '/' ∉ uuid)
    (h : Stopped fs [.create (tmpName (join dir n) uuid), .write (tmpName (join dir n) uuid) content] fs') :
    (∀ q, q ≠ D ++ [tmpOf n uuid] → look fs' q = look fs q) ∧ Keeps fs fs' := by
  have ht := isName_tmp hn hu
  rw [tmpName_join hn hu] at h
  generalize tmpOf n uuid = T at *
  have hT : D ++ [T] ≠ [] := by simp
  cases h with
  | here => exact ⟨fun _ _ => rfl, fun _ h => h⟩
  | later h1 h =>
    simp only [apply, resolve_join hd ht, bind, Except.bind] at h1
    split at h1
    · cases h1
    rename_i hnd
    cases h1
    have hk1 := keeps_set (n := .file []) (fun e => hnd e)
    have hd1 := hd.keeps hk1
    have look1 : ∀ q, look (set fs (D ++ [T]) (.file [])) q = if q = D ++ [T] then some (.file []) else look fs q :=
      look_set hT
    have hwrite : ∀ (b : Py Bytes) fs2, apply (set fs (D ++ [T]) (.file [])) (.write (join dir T) b) = .ok fs2 →
        ∃ c, b = .ok c ∧ fs2 = set (set fs (D ++ [T]) (.file [])) (D ++ [T]) (.file c) := by
      intro b fs2 h
      simp only [apply, resolve_join hd1 ht, bind, Except.bind, look1, if_true] at h
      cases b with
      | error e => cases h
      | ok c => exact ⟨c, rfl, by simpa using h.symm⟩
    have look2 : ∀ c q, look (set (set fs (D ++ [T]) (.file [])) (D ++ [T]) (.file c)) q =
        if q = D ++ [T] then some (.file c) else look fs q := by
      intro c q
      rw [look_set hT, look1]
      split <;> rfl
    have hk2 : ∀ c, Keeps fs (set (set fs (D ++ [T]) (.file [])) (D ++ [T]) (.file c)) := fun c =>
      hk1.trans (keeps_set (by rw [look1, if_pos rfl]; simp))
    cases h with
    | here => exact ⟨fun q h1 => by rw [look1, if_neg h1], hk1⟩
    | torn n l h =>
      obtain ⟨c, _, rfl⟩ := hwrite _ _ h
      exact ⟨fun q h1 => by rw [look2, if_neg h1], hk2 _⟩
    | later h2 h =>
      obtain ⟨c, rfl, rfl⟩ := hwrite _ _ h2
      cases stopped_nil h
      exact ⟨fun q h1 => by rw [look2, if_neg h1], hk2 _⟩

/-! Lookups. -/

/-- The way on from an entry does not depend on its attributes, only on what is found on it. -/
theorem descend_congr_from {env : Env} {fs fs' : Fs} (hw : WellFormed fs) (hw' : WellFormed fs') {path : Str} {base : Path}
    (hb : DirAt fs path base) (hb' : DirAt fs' path base) (rs : List Dn.Rdn) :
    ∀ (a0 : List Dn.Rdn) (c c' : Handle), rs ≠ [] → c.path = joinAll path (a0.map dirName) → c'.path = c.path → c'.dn = c.dn →
      NoSlash (a0 ++ rs) →
      (∀ a x, a ++ [x] <+: rs → found fs' base (a0 ++ a) x = found fs base (a0 ++ a) x ∧
        look fs' (base ++ (a0 ++ a).map dirName ++ [ldifName x]) = look fs (base ++ (a0 ++ a).map dirName ++ [ldifName x])) →
      descend env fs' c' rs = descend env fs c rs := by
  induction rs with
  | nil => intro _ _ _ h; exact absurd rfl h
  | cons x rs ih =>
    intro a0 c c' _ hc hp hd hs h
    obtain ⟨h1, h2⟩ := h [] x ⟨rs, rfl⟩
    rw [List.append_nil] at h1 h2
    have hx : NoSlash (a0 ++ [x]) := fun y hy => hs y (by
      simp only [List.mem_append, List.mem_cons, List.not_mem_nil, or_false] at hy ⊢
      rcases hy with hy | hy
      · exact .inl hy
      · exact .inr (.inl hy))
    have e1 : descend env fs' c' [x] = descend env fs c [x] := by
      rw [descend_step hw hb hx hc, descend_step hw' hb' hx (hp.trans hc), h1, hp, hd]
      unfold loadAt contentAt
      rw [h2]
    have e2 : ∀ fs c, descend env fs c (x :: rs) = (descend env fs c [x]).bind fun d => descend env fs d rs := fun fs c =>
      descend_append (env := env) (fs := fs) [x] rs c
    rw [e2, e2, e1]
    cases hd1 : descend env fs c [x] with
    | error e => rfl
    | ok d =>
      simp only [Except.bind]
      by_cases hr : rs = []
      · subst hr; rfl
      · obtain ⟨hdp, hdd⟩ := descend_ok hd1
        refine ih (a0 ++ [x]) d d hr (by rw [hdp, hc, List.map_append, joinAll, joinAll, joinAll, List.foldl_append]) rfl rfl
          (by simpa using hs) fun a y hpre => ?_
        have := h (x :: a) y (by
          obtain ⟨t, rfl⟩ := hpre
          exact ⟨t, by simp⟩)
        simpa using this

/-- Where the files of the tree are the same, lookups are. -/
theorem lookup_same {env : Env} {fs fs' : Fs} (hw : WellFormed fs) (hw' : WellFormed fs') {path : Str} {base : Path}
    (hb : DirAt fs path base) (hb' : DirAt fs' path base) {as : Verif.Attrs} {D : Path} {n uuid : Str}
    (h : ∀ q, q ≠ D ++ [tmpOf n uuid] → look fs' q = look fs q) (dn : Dn.Dn) (hs : NoSlash dn) :
    lookup env fs' ⟨path, [], as⟩ dn = lookup env fs ⟨path, [], as⟩ dn := by
  rw [lookup_root, lookup_root]
  refine descend_congr hw hw' hb hb' _ (fun x hx => hs x (by simpa using hx)) fun a x _ => ?_
  have h1 : look fs' (base ++ a.map dirName ++ [ldifName x]) = look fs (base ++ a.map dirName ++ [ldifName x]) :=
    h _ (ne_ldif_tmp _ _ _ _ _)
  have h2 : look fs' (base ++ a.map dirName ++ [dirName x]) = look fs (base ++ a.map dirName ++ [dirName x]) :=
    h _ (ne_dir_tmp _ _ _ _ _)
  exact ⟨by unfold found; rw [h1, h2], h1⟩

end Verif.LdifTree
