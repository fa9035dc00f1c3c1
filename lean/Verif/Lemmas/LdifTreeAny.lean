import Verif.Lemmas.LdifTreeList
/-
Storing under any name whatsoever, slashes included: what happens to each file.
-/
namespace Verif.LdifTree
open Verif.Spec
open Verif.Server (Env)

theorem splitSlash_last (a s : Str) (hs : '/' ∉ s) :
    ∃ y, (splitSlash (a ++ s)).getLast? = some (y ++ s) := by
  induction a with
  | nil => exact ⟨[], by rw [List.nil_append, splitSlash_plain hs]; rfl⟩
  | cons c a ih =>
    obtain ⟨y, hy⟩ := ih
    rw [List.cons_append, splitSlash]
    cases hx : splitSlash (a ++ s) with
    | nil => exact absurd hx (splitSlash_ne _)
    | cons p ps =>
      rw [hx] at hy
      split
      · exact ⟨y, by rw [List.getLast?_cons_cons, hy]⟩
      · cases ps with
        | nil =>
          simp only [List.getLast?_singleton, Option.some.injEq] at hy
          exact ⟨c :: y, by simp [hy]⟩
        | cons p' ps => exact ⟨y, by simpa using hy⟩

theorem locate_last {fs : Fs} {c : Str} (hc : c ≠ ['.', '.']) : ∀ {l : List Str} {p q : Path}, l.getLast? = some c →
    locate fs p l = .ok q → q.getLast? = some c
  | [], _, _, h, _ => by cases h
  | [d], p, q, h, hq => by
    simp only [List.getLast?_singleton, Option.some.injEq] at h
    subst h
    simp only [locate, if_neg hc, Except.ok.injEq] at hq
    subst hq
    simp
  | d :: d' :: l, p, q, h, hq => by
    have h' : (d' :: l).getLast? = some c := by simpa using h
    rw [locate] at hq
    · split at hq
      · exact locate_last hc h' hq
      · split at hq
        · exact locate_last hc h' hq
        · cases hq
        · cases hq
    · simp

theorem resolve_last {fs : Fs} {a s : Str} {q : Path} (hs : '/' ∉ s) (hl : 3 ≤ s.length) (h : resolve fs (a ++ s) = .ok q) :
    ∃ d y, q = d ++ [y ++ s] := by
  obtain ⟨y, hy⟩ := splitSlash_last a s hs
  have hn : 3 ≤ (y ++ s).length := by simp; omega
  have h1 : (parts (a ++ s)).getLast? = some (y ++ s) := by
    obtain ⟨l, hl'⟩ := List.getLast?_eq_some_iff.mp hy
    unfold parts
    rw [hl', List.filter_append]
    have : ([y ++ s].filter fun c => decide (c ≠ [] ∧ c ≠ ['.'])) = [y ++ s] := by
      rw [List.filter_cons_of_pos]
      · rfl
      · simp only [decide_eq_true_eq]
        constructor <;> intro h <;> rw [h] at hn <;> simp at hn
    rw [this]; simp
  have := locate_last (by intro h; rw [h] at hn; simp at hn) h1 h
  obtain ⟨d, hd⟩ := List.getLast?_eq_some_iff.mp this
  exact ⟨d, y, hd⟩

theorem join_suffix {a n s : Str} (hs : ¬ ['/'].isPrefixOf s) : join a n ++ s = join a (n ++ s) := by
  unfold join
  cases n with
  | nil =>
    rw [List.nil_append, if_neg hs, if_neg (by simp)]
    split <;> simp
  | cons c n =>
    have : ['/'].isPrefixOf (c :: n ++ s) = ['/'].isPrefixOf (c :: n) := by simp [List.isPrefixOf]
    rw [this]
    split
    · rfl
    · split <;> simp

/-- Whatever the name: a file whose name does not end in `.tmp` is as before or has the complete new content. -/
theorem stopped_putEntry_any {fs fs' : Fs} {f uuid : Str} {c : Py Bytes} (h : Stopped fs (putEntry f uuid c) fs') :
    Keeps fs fs' ∧ ∀ q, (¬ ∃ d y, q = d ++ [y ++ ".tmp".toList]) →
      look fs' q = look fs q ∨ ∃ b, c = .ok b ∧ look fs' q = some (.file b) ∧ resolve fs' (f ++ ".ldif".toList) = .ok q := by
  unfold putEntry at h
  have hend : ∀ (fs : Fs) T, resolve fs (tmpName f uuid) = .ok T → ∃ d y, T = d ++ [y ++ ".tmp".toList] :=
    fun fs T h => resolve_last (by decide) (by decide) h
  generalize tmpName f uuid = t at h hend
  cases h with
  | here => exact ⟨fun _ h => h, fun q _ => .inl rfl⟩
  | later h1 h' =>
    rename_i fs1
    cases hT : resolve fs t with
    | error e => simp only [apply, hT, bind, Except.bind] at h1; cases h1
    | ok T =>
      obtain ⟨d, y, hdy⟩ := hend fs T hT
      have hT0 : T ≠ [] := by rw [hdy]; simp
      simp only [apply, hT, bind, Except.bind] at h1
      split at h1
      · cases h1
      rename_i hnd
      cases h1
      have hk1 := keeps_set (n := .file []) (fun e => hnd e)
      have look1 : ∀ q, look (set fs T (.file [])) q = if q = T then some (.file []) else look fs q := look_set hT0
      have hT1 : resolve (set fs T (.file [])) t = .ok T := locate_keeps hk1 hT
      have key : ∀ (b : Bytes) fs2, apply (set fs T (.file [])) (.write t (.ok b)) = .ok fs2 →
          Keeps fs fs2 ∧ resolve fs2 t = .ok T ∧ ∀ q, look fs2 q = if q = T then some (.file b) else look fs q := by
        intro b fs2 h2
        simp only [apply, hT1, bind, Except.bind, look1, if_true, List.nil_append, Except.ok.injEq] at h2
        subst h2
        have hk : Keeps (set fs T (.file [])) (set (set fs T (.file [])) T (.file b)) := keeps_set (by rw [look1, if_pos rfl]; simp)
        refine ⟨hk1.trans hk, locate_keeps hk hT1, fun q => ?_⟩
        rw [look_set hT0, look1]
        split <;> rfl
      cases h' with
      | here =>
        refine ⟨hk1, fun q hq => .inl ?_⟩
        rw [look1, if_neg]; rintro rfl; exact hq ⟨d, y, hdy⟩
      | torn n _ h2 =>
        obtain ⟨h3, _, h4⟩ := key _ _ h2
        refine ⟨h3, fun q hq => .inl ?_⟩
        rw [h4, if_neg]; rintro rfl; exact hq ⟨d, y, hdy⟩
      | later h2 h' =>
        rename_i fs2
        cases c with
        | error e => simp only [apply, hT1, bind, Except.bind] at h2; cases h2
        | ok b =>
          obtain ⟨h3, h3', h4⟩ := key _ _ h2
          cases h' with
          | here =>
            refine ⟨h3, fun q hq => .inl ?_⟩
            rw [h4, if_neg]; rintro rfl; exact hq ⟨d, y, hdy⟩
          | later h5 h' =>
            have := stopped_nil h'
            subst this
            cases hL : resolve fs2 (f ++ ".ldif".toList) with
            | error e => simp only [apply, h3', hL, bind, Except.bind] at h5; cases h5
            | ok L =>
              obtain ⟨d', y', hdy'⟩ := resolve_last (by decide) (by decide) hL
              have hL0 : L ≠ [] := by rw [hdy']; simp
              have hne : L ≠ T := by
                rw [hdy, hdy']
                intro e
                have := List.append_inj' e rfl
                exact ldif_ne_tmp _ _ (by simpa using this.2)
              simp only [apply, h3', hL, bind, Except.bind, h4, if_true, if_neg hne] at h5
              split at h5
              · cases h5
              · cases h5
              · cases h5
              · rename_i b' e hnd2
                cases e
                cases h5
                have hk3 : Keeps fs2 (set (erase fs2 T) L (.file b)) := by
                  refine Keeps.trans (keeps_erase (by rw [h4, if_pos rfl]; simp)) (keeps_set ?_)
                  rw [look_erase hT0, if_neg hne, h4, if_neg hne]
                  exact fun e => hnd2 e
                refine ⟨h3.trans hk3, fun q hq => ?_⟩
                by_cases hqL : q = L
                · subst hqL
                  exact .inr ⟨b, rfl, by rw [look_set hL0, if_pos rfl], locate_keeps hk3 hL⟩
                · have hqT : q ≠ T := by rintro rfl; exact hq ⟨d, y, hdy⟩
                  exact .inl (by rw [look_set hL0, if_neg hqL, look_erase hT0, if_neg hqT, h4, if_neg hqT])

/-- The same for storing an entry, the making of its directory included. -/
theorem stopped_put_any {env : Env} {fs fs' : Fs} {path uuid : Str} {e : Entry} {steps : List Step}
    (hput : putSteps env fs path uuid e = .ok steps) (h : Stopped fs steps fs') :
    Keeps fs fs' ∧ ∀ q, (¬ ∃ d y, q = d ++ [y ++ ".tmp".toList]) →
      look fs' q = look fs q ∨ (look fs q = none ∧ look fs' q = some .dir) ∨
        ∃ b, Ldif.toWire env e = .ok b ∧ look fs' q = some (.file b) ∧ resolve fs' (entryPath path e.dn) = .ok q := by
  unfold putSteps at hput
  cases hdn : e.dn with
  | nil => rw [hdn] at hput; cases hput
  | cons r up =>
    rw [hdn] at hput
    simp only [bind, Except.bind] at hput
    have hpath : ∀ dir st, parentDir fs path up = .ok (dir, st) → join dir r.text ++ ".ldif".toList = entryPath path (r :: up) := by
      intro dir st hp
      rw [join_suffix (by decide), entryPath, ldifName]
      congr 1
      cases up with
      | nil => simp only [parentDir, Except.ok.injEq, Prod.mk.injEq] at hp; rw [← hp.1]; rfl
      | cons p up =>
        rw [List.reverse_cons, List.map_append, List.map_singleton, joinAll_append]
        simp only [parentDir] at hp
        split at hp
        · cases hp; rfl
        · split at hp <;> cases hp; rfl
    have hsteps : ∀ dir st, parentDir fs path up = .ok (dir, st) → st = [] ∨ st = [.mkdir dir true] := by
      intro dir st hp
      cases up with
      | nil => simp only [parentDir, Except.ok.injEq, Prod.mk.injEq] at hp; exact .inl hp.2.symm
      | cons p up =>
        simp only [parentDir] at hp
        split at hp
        · cases hp; exact .inl rfl
        · split at hp <;> cases hp; exact .inr rfl
    cases hp : parentDir fs path up with
    | error x => rw [hp] at hput; cases hput
    | ok ds =>
      obtain ⟨dir, st⟩ := ds
      rw [hp] at hput
      cases hput
      have hP := hpath _ _ hp
      rcases hsteps _ _ hp with rfl | rfl
      · obtain ⟨h1, h2⟩ := stopped_putEntry_any h
        refine ⟨h1, fun q hq => ?_⟩
        rcases h2 q hq with h3 | ⟨b, h3, h4, h5⟩
        · exact .inl h3
        · exact .inr (.inr ⟨b, h3, h4, hP ▸ h5⟩)
      · cases h with
        | here => exact ⟨fun _ h => h, fun q _ => .inl rfl⟩
        | later h1 h' =>
          rename_i fs1
          obtain ⟨h3, h4⟩ := stopped_putEntry_any h'
          have hm : Keeps fs fs1 ∧ ∀ q, look fs1 q = look fs q ∨ look fs q = none ∧ look fs1 q = some .dir := by
            cases hD : resolve fs dir with
            | error x => simp only [apply, hD, bind, Except.bind] at h1; cases h1
            | ok D =>
              simp only [apply, hD, bind, Except.bind] at h1
              split at h1
              · rename_i hn
                cases h1
                have hD0 : D ≠ [] := by rintro rfl; cases hn
                refine ⟨keeps_set (by rw [hn]; simp), fun q => ?_⟩
                rw [look_set hD0]
                split
                · rename_i hq; subst hq; exact .inr ⟨hn, rfl⟩
                · exact .inl rfl
              · cases h1; exact ⟨fun _ h => h, fun q => .inl rfl⟩
          refine ⟨hm.1.trans h3, fun q hq => ?_⟩
          rcases h4 q hq with h5 | ⟨b, h5, h6, h7⟩
          · rw [h5]
            rcases hm.2 q with h | h
            · exact .inl h
            · exact .inr (.inl h)
          · exact .inr (.inr ⟨b, h5, h6, hP ▸ h7⟩)

end Verif.LdifTree
