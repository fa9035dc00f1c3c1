import Verif.Lemmas.LdifTreePut
/-
Listing the children of an entry, and well-formed file systems.
-/
namespace Verif.LdifTree
open Verif.Spec
open Verif.Server (Env)

/-! Well-formedness is kept. -/

theorem look_parent {fs : Fs} (hw : WellFormed fs) {p : Path} (hp : p ≠ []) (h : look fs p ≠ none) :
    look fs p.dropLast = some .dir := by
  have := List.dropLast_concat_getLast hp
  rw [← this] at h
  exact hw _ _ h

theorem locate_parent {fs : Fs} (hw : WellFormed fs) {p q : Path} {l : List Str} (hp : look fs p = some .dir)
    (h : locate fs p l = .ok q) : q = [] ∨ look fs q.dropLast = some .dir := by
  have up : ∀ p : Path, look fs p = some .dir → look fs p.dropLast = some .dir := by
    intro p hp
    by_cases e : p = []
    · subst e; exact hp
    · exact look_parent hw e (by rw [hp]; simp)
  induction l generalizing p with
  | nil =>
    simp only [locate, Except.ok.injEq] at h
    subst h
    exact .inr (up _ hp)
  | cons c l ih =>
    cases l with
    | nil =>
      simp only [locate, Except.ok.injEq] at h
      subst h
      split
      · exact .inr (up _ (up _ hp))
      · exact .inr (by simpa using hp)
    | cons c' l =>
      rw [locate] at h
      · split at h
        · exact ih (up _ hp) h
        · split at h
          · rename_i h3; exact ih h3 h
          · cases h
          · cases h
      · simp

theorem wellFormed_set {fs : Fs} (hw : WellFormed fs) {p : Path} {n : Node} (hp : p = [] ∨ look fs p.dropLast = some .dir)
    (hn : look fs p ≠ some .dir) : WellFormed (set fs p n) := by
  have hp' : p ≠ [] := by rintro rfl; exact hn rfl
  have hd : look fs p.dropLast = some .dir := hp.resolve_left hp'
  intro q x h
  rw [look_set hp'] at h
  rw [look_set hp']
  by_cases e : q ++ [x] = p
  · subst e
    rw [List.dropLast_concat] at hd
    rw [if_neg (append_ne_self _ _)]
    exact hd
  · rw [if_neg e] at h
    have := hw _ _ h
    rw [if_neg (by rintro rfl; exact hn this)]
    exact this

theorem wellFormed_erase {fs : Fs} (hw : WellFormed fs) {p : Path} (hn : look fs p ≠ some .dir) : WellFormed (erase fs p) := by
  have hp' : p ≠ [] := by rintro rfl; exact hn rfl
  intro q x h
  rw [look_erase hp'] at h
  rw [look_erase hp']
  split at h
  · exact absurd rfl h
  · have := hw _ _ h
    rw [if_neg (by rintro rfl; exact hn this)]
    exact this

theorem resolve_parent {fs : Fs} (hw : WellFormed fs) {s : Str} {p : Path} (h : resolve fs s = .ok p) :
    p = [] ∨ look fs p.dropLast = some .dir := locate_parent hw rfl h

theorem wellFormed_apply {fs fs' : Fs} (hw : WellFormed fs) {s : Step} (h : apply fs s = .ok fs') : WellFormed fs' := by
  cases s with
  | create s =>
    cases hr : resolve fs s with
    | error e => simp [apply, hr, bind, Except.bind] at h
    | ok p =>
      simp only [apply, hr, bind, Except.bind] at h
      split at h
      · cases h
      · rename_i hn
        cases h
        exact wellFormed_set hw (resolve_parent hw hr) fun e => hn e
  | write s c =>
    cases hr : resolve fs s with
    | error e => simp [apply, hr, bind, Except.bind] at h
    | ok p =>
      simp only [apply, hr, bind, Except.bind] at h
      split at h
      · cases h
      · rename_i hn
        cases h
        exact wellFormed_set hw (resolve_parent hw hr) (by rw [hn]; simp)
      · cases h
  | rename s t =>
    cases hr : resolve fs s with
    | error e => simp [apply, hr, bind, Except.bind] at h
    | ok p =>
      cases hr' : resolve fs t with
      | error e => simp [apply, hr, hr', bind, Except.bind] at h
      | ok q =>
        simp only [apply, hr, hr', bind, Except.bind] at h
        split at h
        · cases h
        · cases h
        · cases h
        · rename_i b _ hp hn
          cases h
          have hp2 : look fs p ≠ some .dir := by rw [hp]; simp
          have hp' : p ≠ [] := by rintro rfl; exact hp2 rfl
          refine wellFormed_set (wellFormed_erase hw hp2) ?_ ?_
          · rcases resolve_parent hw hr' with h | h
            · exact .inl h
            · exact .inr (keeps_erase hp2 _ h)
          · rw [look_erase hp']
            split
            · simp
            · exact fun e => hn e
  | mkdir s i =>
    cases hr : resolve fs s with
    | error e => simp [apply, hr, bind, Except.bind] at h
    | ok p =>
      simp only [apply, hr, bind, Except.bind] at h
      split at h
      · rename_i hn
        cases h
        exact wellFormed_set hw (resolve_parent hw hr) (by rw [hn]; simp)
      · split at h
        · cases h; exact hw
        · cases h
  | remove s =>
    cases hr : resolve fs s with
    | error e => simp [apply, hr, bind, Except.bind] at h
    | ok p =>
      simp only [apply, hr, bind, Except.bind] at h
      split at h
      · cases h
      · cases h
      · rename_i hn
        cases h
        exact wellFormed_erase hw (by rw [hn]; simp)

theorem wellFormed_stopped {fs fs' : Fs} {l : List Step} (hw : WellFormed fs) (h : Stopped fs l fs') : WellFormed fs' := by
  induction h with
  | here => exact hw
  | torn n l h => exact wellFormed_apply hw h
  | later h _ ih => exact ih (wellFormed_apply hw h)

theorem stopped_run {fs fs' : Fs} {l : List Step} (h : run fs l = .ok fs') : Stopped fs l fs' := by
  induction l generalizing fs with
  | nil => simp only [run, Except.ok.injEq] at h; subst h; exact .here _ _
  | cons s l ih =>
    simp only [run, bind, Except.bind] at h
    split at h
    · cases h
    · rename_i h1; exact .later h1 (ih h)

/-- A test for well-formedness, for concrete examples. -/
theorem wellFormed_of_all {fs : Fs} (h : fs.all (fun e => decide (look fs e.1.dropLast = some .dir)) = true) : WellFormed fs := by
  intro p n hn
  unfold look at hn
  rw [if_neg (by simp)] at hn
  cases e : fs.find? (fun x => decide (x.1 = p ++ [n])) with
  | none => rw [e] at hn; exact absurd rfl hn
  | some x =>
    have h1 := List.find?_some e
    have h2 := List.all_eq_true.mp h x (List.mem_of_find?_eq_some e)
    simp only [decide_eq_true_eq] at h1 h2
    rw [h1, List.dropLast_concat] at h2
    exact h2

/-! Extensions. -/

theorem splitExt_some {a ext : Str} (he : '.' ∉ ext) (ha : a.all (· = '.') = false) : splitExt (a ++ '.' :: ext) = (a, '.' :: ext) := by
  have hr : (a ++ '.' :: ext).reverse = ext.reverse ++ '.' :: a.reverse := by simp
  have h1 : ((a ++ '.' :: ext).reverse.dropWhile (· ≠ '.')) = '.' :: a.reverse := by
    rw [hr, List.dropWhile_append_of_pos]
    · simp
    · intro c hc
      simp only [List.mem_reverse] at hc
      simpa using fun e : c = '.' => he (e ▸ hc)
  have h2 : ((a ++ '.' :: ext).reverse.takeWhile (· ≠ '.')) = ext.reverse := by
    rw [hr, List.takeWhile_append_of_pos]
    · simp
    · intro c hc
      simp only [List.mem_reverse] at hc
      simpa using fun e : c = '.' => he (e ▸ hc)
  unfold splitExt
  rw [h1]
  simp only [h2]
  rw [if_neg]
  · simp
  · rw [List.all_reverse, ha]; simp

theorem splitExt_inv {s b x : Str} (h : splitExt s = (b, x)) (hx : x ≠ []) : s = b ++ x := by
  unfold splitExt at h
  split at h
  · cases h; exact absurd rfl hx
  · rename_i c r hr
    split at h
    · cases h; exact absurd rfl hx
    · cases h
      have h1 := List.takeWhile_append_dropWhile (p := (· ≠ '.')) (l := s.reverse)
      rw [hr] at h1
      have hc : c = '.' := by
        have := List.head?_dropWhile_not (· ≠ '.') s.reverse
        rw [hr] at this
        simpa using this
      subst hc
      have h2 := congrArg List.reverse h1
      simp only [List.reverse_append, List.reverse_cons, List.reverse_reverse, List.append_assoc] at h2
      exact h2.symm.trans (by simp)

theorem splitExt_tmp {n uuid b : Str} {x : Str} (h : splitExt (tmpOf n uuid) = (b, x)) : x ≠ ".dir".toList ∧ x ≠ ".ldif".toList := by
  constructor
  · rintro rfl
    exact dir_ne_tmp _ _ (splitExt_inv h (by decide)).symm
  · rintro rfl
    exact ldif_ne_tmp _ _ (splitExt_inv h (by decide)).symm

theorem mem_bases {b : Str} {seen names : List Str} : b ∈ bases seen names ↔
    b ∉ seen ∧ ∃ fn ∈ names, (splitExt fn).1 = b ∧ ((splitExt fn).2 = ".dir".toList ∨ (splitExt fn).2 = ".ldif".toList) := by
  induction names generalizing seen with
  | nil => simp [bases]
  | cons fn names ih =>
    rw [bases]
    split
    · rename_i h1
      rw [ih]
      constructor
      · rintro ⟨h2, x, hx, h3⟩; exact ⟨h2, x, List.mem_cons_of_mem _ hx, h3⟩
      · rintro ⟨h2, x, hx, h3, h4⟩
        rcases List.mem_cons.mp hx with rfl | hx
        · exact absurd h4 (by rw [not_or]; exact h1)
        · exact ⟨h2, x, hx, h3, h4⟩
    · rename_i h1
      have h1' : (splitExt fn).2 = ".dir".toList ∨ (splitExt fn).2 = ".ldif".toList := by
        by_cases e : (splitExt fn).2 = ".dir".toList
        · exact .inl e
        · exact .inr (Classical.byContradiction fun h => h1 ⟨e, h⟩)
      split
      · rename_i hs
        rw [ih]
        constructor
        · rintro ⟨h2, x, hx, h3⟩; exact ⟨h2, x, List.mem_cons_of_mem _ hx, h3⟩
        · rintro ⟨h2, x, hx, h3, h4⟩
          rcases List.mem_cons.mp hx with rfl | hx
          · exact absurd (h3 ▸ hs) h2
          · exact ⟨h2, x, hx, h3, h4⟩
      · rename_i hs
        rw [List.mem_cons, ih]
        constructor
        · rintro (rfl | ⟨h2, x, hx, h3⟩)
          · exact ⟨hs, fn, List.mem_cons_self, rfl, h1'⟩
          · exact ⟨fun h => h2 (List.mem_cons_of_mem _ h), x, List.mem_cons_of_mem _ hx, h3⟩
        · rintro ⟨h2, x, hx, h3, h4⟩
          by_cases e : b = (splitExt fn).1
          · exact .inl e
          · rcases List.mem_cons.mp hx with rfl | hx
            · exact absurd h3.symm e
            · refine .inr ⟨?_, x, hx, h3, h4⟩
              intro h
              rcases List.mem_cons.mp h with h | h
              · exact e h
              · exact h2 h

/-- A directory shows a child of this name. -/
def Shown (fs : Fs) (p : Path) (b : Str) : Prop :=
  ∃ fn, look fs (p ++ [fn]) ≠ none ∧ (splitExt fn).1 = b ∧ ((splitExt fn).2 = ".dir".toList ∨ (splitExt fn).2 = ".ldif".toList)

theorem mem_listing {fs : Fs} {p : Path} {n : Str} :
    n ∈ (fs.filterMap fun e => if e.1 ≠ [] ∧ e.1.dropLast = p then e.1.getLast? else none) ↔ look fs (p ++ [n]) ≠ none := by
  unfold look
  rw [if_neg (by simp)]
  simp only [List.mem_filterMap, ne_eq, Option.map_eq_none_iff, List.find?_eq_none]
  constructor
  · rintro ⟨e, he, h⟩ hn
    split at h
    · rename_i h1
      apply hn e he
      have := List.dropLast_concat_getLast h1.1
      rw [List.getLast?_eq_some_getLast h1.1, Option.some.injEq, ] at h
      rw [h, h1.2] at this
      simpa using this.symm
    · cases h
  · intro h
    refine Classical.byContradiction fun hn => h fun e he h2 => hn ⟨e, he, ?_⟩
    simp only [decide_eq_true_eq] at h2
    simp [h2]

theorem mem_childNames {fs : Fs} (hw : WellFormed fs) {path : Str} {base : Path} (hb : DirAt fs path base) {d : Dn.Dn}
    (hs : NoSlash d) {b : Str} : b ∈ childNames fs (joinAll path (d.reverse.map dirName)) ↔ Shown fs (dirOf base d) b := by
  by_cases h : look fs (dirOf base d) = some .dir
  · have hd := resolve_joinAll hb (names_of hs) (walk_of_look hw h)
    unfold childNames listDir
    rw [hd.path]
    simp only [bind, Except.bind]
    have : look fs (base ++ List.map dirName d.reverse) = some .dir := h
    rw [this]
    simp only
    rw [mem_bases]
    simp only [List.not_mem_nil, not_false_eq_true, true_and, mem_listing, Shown]
    rfl
  · constructor
    · intro hm
      exfalso
      unfold childNames at hm
      split at hm
      · rename_i names hl
        unfold listDir at hl
        cases hr : resolve fs (joinAll path (d.reverse.map dirName)) with
        | error e => rw [hr] at hl; cases hl
        | ok p =>
          rw [hr] at hl
          simp only [bind, Except.bind] at hl
          split at hl
          · cases hl
          · cases hl
          · rename_i hp
            apply h
            have : p = dirOf base d := by
              cases d with
              | nil =>
                have := hb.path
                simp only [List.reverse_nil, List.map_nil, joinAll, List.foldl_nil] at hr
                rw [this] at hr
                cases hr
                simp [dirOf]
              | cons r up =>
                rw [List.reverse_cons, List.map_append, List.map_singleton, joinAll_append,
                  resolve_below hb (names_of fun x hx => hs x (by simp [hx])) (isName_dir (slash_of hs (by simp)))] at hr
                cases hw' : walk fs base (up.reverse.map dirName) with
                | error e => rw [hw'] at hr; cases hr
                | ok G =>
                  rw [hw'] at hr
                  have := walk_ok hw'
                  subst this
                  simp only [Except.map, Except.ok.injEq] at hr
                  rw [← hr]
                  simp [dirOf]
            rw [← this]; exact hp
      · simp at hm
    · rintro ⟨fn, h1, _⟩
      exact absurd (hw _ _ h1) h

theorem dots_of_text {r : Dn.Rdn} (h : r ≠ []) : r.text.all (· = '.') = false := by
  cases r with
  | nil => exact absurd rfl h
  | cons a r =>
    have h1 : '=' ∈ a.text := by simp [Dn.Ava.text]
    have h2 : '=' ∈ Dn.Rdn.text (a :: r) := by
      unfold Dn.Rdn.text
      cases r with
      | nil => simpa [joinWith] using h1
      | cons b r => simp [joinWith, h1]
    cases e : (Dn.Rdn.text (a :: r)).all (· = '.') with
    | false => rfl
    | true =>
      rw [List.all_eq_true] at e
      exact absurd (e _ h2) (by decide)

theorem splitExt_dir {r : Dn.Rdn} (h : r ≠ []) : splitExt (dirName r) = (r.text, ".dir".toList) :=
  splitExt_some (ext := "dir".toList) (by decide) (dots_of_text h)
theorem splitExt_ldif {r : Dn.Rdn} (h : r ≠ []) : splitExt (ldifName r) = (r.text, ".ldif".toList) :=
  splitExt_some (ext := "ldif".toList) (by decide) (dots_of_text h)

/-- The children shown while an entry is stored: those before, and the new one when it is there. -/
theorem shown_between {fs fs' : Fs} {base : Path} {r : Dn.Rdn} {up : Dn.Dn} {uuid : Str} {c : Py Bytes} (hr : r ≠ [])
    (hup : ∀ p ∈ up, p ≠ []) (h : Between fs fs' (dirOf base up) r.text uuid c)
    (hp : look fs (dirOf base up) = none → up ≠ [] ∧ ∃ p up', up = p :: up' ∧ look fs (dirOf base up' ++ [ldifName p]) ≠ none)
    (C : Path) (b : Str) :
    Shown fs' C b ↔ Shown fs C b ∨ C = dirOf base up ∧ b = r.text ∧ look fs' (dirOf base up ++ [ldifName r]) ≠ none := by
  constructor
  · rintro ⟨fn, h1, h2, h3⟩
    by_cases e1 : C ++ [fn] = dirOf base up ++ [tmpOf r.text uuid]
    · obtain ⟨rfl, e⟩ := List.append_inj' e1 rfl
      simp only [List.cons.injEq, and_true] at e
      subst e
      have := splitExt_tmp (n := r.text) (uuid := uuid) rfl
      rcases h3 with h3 | h3
      · exact absurd h3 this.1
      · exact absurd h3 this.2
    by_cases e2 : C ++ [fn] = dirOf base up ++ [ldifName r]
    · obtain ⟨rfl, e⟩ := List.append_inj' e2 rfl
      simp only [List.cons.injEq, and_true] at e
      subst e
      refine .inr ⟨rfl, ?_, h1⟩
      rw [← h2, splitExt_ldif hr]
    by_cases e3 : C ++ [fn] = dirOf base up
    · rcases h.dir with hd | ⟨hd, hd'⟩
      · refine .inl ⟨fn, ?_, h2, h3⟩
        rw [e3, ← hd, ← e3]; exact h1
      · obtain ⟨_, p, up', rfl, hl⟩ := hp hd
        have hD : dirOf base (p :: up') = dirOf base up' ++ [dirName p] := by simp [dirOf]
        rw [hD] at e3
        obtain ⟨rfl, e⟩ := List.append_inj' e3 rfl
        simp only [List.cons.injEq, and_true] at e
        subst e
        have hpn := hup p (by simp)
        refine .inl ⟨ldifName p, hl, ?_, .inr ?_⟩
        · rw [splitExt_ldif hpn, ← h2, splitExt_dir hpn]
        · rw [splitExt_ldif hpn]
    · exact .inl ⟨fn, by rw [← h.others _ e1 e2 e3]; exact h1, h2, h3⟩
  · rintro (⟨fn, h1, h2, h3⟩ | ⟨rfl, rfl, h1⟩)
    · refine ⟨fn, ?_, h2, h3⟩
      by_cases e1 : C ++ [fn] = dirOf base up ++ [tmpOf r.text uuid]
      · obtain ⟨rfl, e⟩ := List.append_inj' e1 rfl
        simp only [List.cons.injEq, and_true] at e
        subst e
        have := splitExt_tmp (n := r.text) (uuid := uuid) rfl
        rcases h3 with h3 | h3
        · exact absurd h3 this.1
        · exact absurd h3 this.2
      by_cases e2 : C ++ [fn] = dirOf base up ++ [ldifName r]
      · rw [e2]
        rcases h.file with hf | ⟨x, _, hf⟩
        · intro hn
          exact h1 (by rw [e2]; exact hf.symm.trans hn)
        · intro hn
          exact absurd (hf.symm.trans hn) (by simp)
      by_cases e3 : C ++ [fn] = dirOf base up
      · rw [e3]
        rcases h.dir with hd | ⟨_, hd⟩
        · rw [hd, ← e3]; exact h1
        · rw [hd]; simp
      · rw [h.others _ e1 e2 e3]; exact h1
    · exact ⟨ldifName r, h1, by rw [splitExt_ldif hr], .inr (by rw [splitExt_ldif hr])⟩

end Verif.LdifTree
