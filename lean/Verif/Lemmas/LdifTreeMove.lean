import Verif.Model.LdifTreeMove
import Verif.Lemmas.LdifTreeCommit
/-
Renaming the directory and the file of an entry.
-/
namespace Verif.LdifTree
open Verif.Spec
open Verif.Server (Env)

/-! The map. -/

theorem find_congr {l : List (Path × Node)} {f g : Path × Node → Bool} (h : ∀ e ∈ l, f e = g e) : l.find? f = l.find? g := by
  induction l with
  | nil => rfl
  | cons e l ih =>
    rw [List.find?_cons, List.find?_cons, h e List.mem_cons_self, ih fun x hx => h x (List.mem_cons_of_mem _ hx)]

theorem look_none {fs : Fs} {p : Path} (h : look fs p = none) : ∀ e ∈ fs, e.1 ≠ p := by
  unfold look at h
  split at h
  · cases h
  · rw [Option.map_eq_none_iff, List.find?_eq_none] at h
    intro e he
    simpa using h e he

theorem movedPath_below (p q t : Path) : movedPath p q (p ++ t) = q ++ t := by simp [movedPath]
theorem movedPath_other {p q x : Path} (h : ¬ p <+: x) : movedPath p q x = x := by
  rw [movedPath, if_neg]
  rwa [List.isPrefixOf_iff_prefix]

/-- Everything below one path is under another. -/
theorem look_moveAll {fs : Fs} {p q : Path} (hp : p ≠ []) (hq : q ≠ []) (hfree : ∀ t, look fs (q ++ t) = none) (x : Path) :
    look (moveAll fs p q) x = if q <+: x then look fs (p ++ x.drop q.length) else if p <+: x then none else look fs x := by
  by_cases hx : x = []
  · subst hx
    rw [if_neg (by simpa using hq), if_neg (by simpa using hp)]
    rfl
  have key : ∀ y, y ≠ [] → (∀ e ∈ fs, movedPath p q e.1 = x ↔ e.1 = y) → look (moveAll fs p q) x = look fs y := by
    intro y hy h
    unfold look moveAll
    rw [if_neg hx, if_neg hy, List.find?_map, Option.map_map]
    rw [find_congr (g := fun e => decide (e.1 = y)) (fun e he => by simp [h e he])]
    rfl
  split
  · rename_i h
    obtain ⟨t, rfl⟩ := h
    rw [List.drop_left]
    refine key _ (by simp [hp]) fun e he => ?_
    by_cases hpe : p <+: e.1
    · obtain ⟨s, hs⟩ := hpe
      rw [← hs, movedPath_below, List.append_cancel_left_eq, List.append_cancel_left_eq]
    · rw [movedPath_other hpe]
      exact ⟨fun h => absurd h (look_none (hfree t) e he), fun h => absurd ⟨t, h.symm⟩ hpe⟩
  · rename_i h
    split
    · rename_i h2
      unfold look moveAll
      rw [if_neg hx, Option.map_eq_none_iff, List.find?_eq_none]
      intro e he
      obtain ⟨e0, he0, rfl⟩ := List.mem_map.mp he
      simp only [decide_eq_true_eq]
      intro hm
      by_cases hpe : p <+: e0.1
      · obtain ⟨s, hs⟩ := hpe
        rw [← hs, movedPath_below] at hm
        exact h ⟨s, hm⟩
      · rw [movedPath_other hpe] at hm
        exact hpe (hm ▸ h2)
    · rename_i h2
      refine key _ hx fun e he => ?_
      by_cases hpe : p <+: e.1
      · obtain ⟨s, hs⟩ := hpe
        rw [← hs, movedPath_below]
        exact ⟨fun hm => absurd ⟨s, hm⟩ h, fun hm => absurd ⟨s, hm⟩ h2⟩
      · rw [movedPath_other hpe]

/-- What is where after something has been moved. -/
def Moved (fs fs' : Fs) (p q : Path) : Prop :=
  ∀ x, look fs' x = if q <+: x then look fs (p ++ x.drop q.length) else if p <+: x then none else look fs x

theorem look_file_below {fs : Fs} (hw : WellFormed fs) {p : Path} (h : look fs p ≠ some .dir) (n : Str) (t : List Str) :
    look fs (p ++ n :: t) = none := by
  have h1 : look fs (p ++ [n]) = none := by
    cases hl : look fs (p ++ [n]) with
    | none => rfl
    | some x => exact absurd (hw p n (by rw [hl]; simp)) h
  have := look_none_below hw h1 t
  simpa using this

/-- Nothing was there, so that nothing was moved. -/
theorem moved_nothing {fs : Fs} (hw : WellFormed fs) {p q : Path} (hp : look fs p = none) (hq : look fs q = none) : Moved fs fs p q := by
  intro x
  split
  · rename_i h
    obtain ⟨t, rfl⟩ := h
    rw [List.drop_left, look_none_below hw hp, look_none_below hw hq]
  · split
    · rename_i h
      obtain ⟨t, rfl⟩ := h
      rw [look_none_below hw hp]
    · rfl

/-- One file was moved. -/
theorem moved_file {fs : Fs} (hw : WellFormed fs) {p q : Path} (hp : p ≠ []) (hq : q ≠ []) (hne : ¬ p <+: q) {b : Bytes}
    (h : look fs p = some (.file b)) (hfree : look fs q = none) : Moved fs (set (erase fs p) q (.file b)) p q := by
  intro x
  rw [look_set hq, look_erase hp]
  split
  · rename_i hx
    subst hx
    rw [if_pos (List.prefix_refl _), List.drop_length, List.append_nil, h]
  · rename_i hx
    split
    · rename_i hx2
      subst hx2
      split
      · rename_i hqx
        obtain ⟨t, rfl⟩ := hqx
        rw [look_none_below hw hfree] at h
        cases h
      · rw [if_pos (List.prefix_refl _)]
    · rename_i hx2
      split
      · rename_i hqx
        obtain ⟨t, rfl⟩ := hqx
        cases t with
        | nil => exact absurd (List.append_nil _) hx
        | cons n t =>
          rw [List.drop_left, look_none_below hw hfree, look_file_below hw (by rw [h]; simp)]
      · split
        · rename_i hpx
          obtain ⟨t, rfl⟩ := hpx
          cases t with
          | nil => exact absurd (List.append_nil _) hx2
          | cons n t => rw [look_file_below hw (by rw [h]; simp)]
        · rfl

/-- What has been moved lies in directories, if the target does. -/
theorem Moved.wellFormed {fs fs' : Fs} (hw : WellFormed fs) {p d : Path} {n : Str} (h : Moved fs fs' p (d ++ [n]))
    (hd : look fs d = some .dir) (hpd : ¬ p <+: d) : WellFormed fs' := by
  have hD : look fs' d = some .dir := by
    rw [h d, if_neg (fun e => by have := e.length_le; simp at this; omega), if_neg hpd, hd]
  intro x m hx
  rw [h] at hx
  split at hx
  · rename_i hq
    obtain ⟨t, ht⟩ := hq
    rcases List.eq_nil_or_concat t with rfl | ⟨t', m', rfl⟩
    · rw [List.append_nil] at ht
      obtain ⟨rfl, _⟩ := List.append_inj' ht rfl
      exact hD
    · rw [List.concat_eq_append] at ht
      rw [← List.append_assoc] at ht
      obtain ⟨rfl, hm⟩ := List.append_inj' ht rfl
      cases hm
      rw [List.append_assoc, List.drop_left, ← List.append_assoc] at hx
      rw [h, if_pos (List.prefix_append _ _), List.drop_left]
      exact hw _ _ hx
  · rename_i hq
    split at hx
    · exact absurd rfl hx
    · rename_i hp
      rw [h, if_neg (fun e => hq (e.trans (List.prefix_append _ _))), if_neg (fun e => hp (e.trans (List.prefix_append _ _)))]
      exact hw _ _ hx

/-! Paths without `..`. -/

theorem locate_plain {fs : Fs} (hw : WellFormed fs) {l : List Str} (hl : ['.', '.'] ∉ l) {p : Path}
    (hd : look fs (p ++ l) = some .dir) : locate fs p l = .ok (p ++ l) := by
  induction l generalizing p with
  | nil => simp [locate]
  | cons c l ih =>
    simp only [List.mem_cons, not_or] at hl
    have hd' : look fs ((p ++ [c]) ++ l) = some .dir := by simpa using hd
    cases l with
    | nil => rw [locate, if_neg fun h => hl.1 h.symm]
    | cons c' l =>
      have h1 : look fs (p ++ [c]) = some .dir := by
        cases hx : look fs (p ++ [c]) with
        | none => rw [look_none_below hw hx] at hd'; cases hd'
        | some x =>
          cases x with
          | dir => rfl
          | file b => rw [look_file_below hw (by rw [hx]; simp)] at hd'; cases hd'
      rw [locate, if_neg (fun h => hl.1 h.symm), h1]
      · simp only
        rw [ih hl.2 hd']
        simp
      · simp

theorem locate_plain_ok {fs : Fs} {l : List Str} (hl : ['.', '.'] ∉ l) {p q : Path} (h : locate fs p l = .ok q) : q = p ++ l := by
  induction l generalizing p with
  | nil => cases h; simp
  | cons c l ih =>
    simp only [List.mem_cons, not_or] at hl
    cases l with
    | nil =>
      rw [locate, if_neg (fun h => hl.1 h.symm)] at h
      cases h
      rfl
    | cons c' l =>
      rw [locate, if_neg (fun h => hl.1 h.symm)] at h
      · split at h
        · rw [ih hl.2 h]; simp
        · cases h
        · cases h
      · simp

theorem dirAt_plain {fs : Fs} (hw : WellFormed fs) {s : Str} (h : ['.', '.'] ∉ parts s) (hd : look fs (parts s) = some .dir) :
    DirAt fs s (parts s) := ⟨locate_plain hw (p := []) h hd, hd⟩

theorem dirAt_parts {fs : Fs} {s : Str} {p : Path} (h : ['.', '.'] ∉ parts s) (hb : DirAt fs s p) : p = parts s :=
  locate_plain_ok (p := []) h hb.path

/-! `os.path.dirname`. -/

theorem parts_rstrip (s : Str) : parts (rstripSlash s) = parts s := by
  have key : ∀ t : Str, parts (t.dropWhile (· = '/')).reverse = parts t.reverse := by
    intro t
    induction t with
    | nil => rfl
    | cons c t ih =>
      by_cases hc : c = '/'
      · rw [List.dropWhile_cons_of_pos (by simpa using hc), ih, List.reverse_cons, hc]
        simp only [parts, splitSlash_append, List.filter_append]
        simp [splitSlash]
      · rw [List.dropWhile_cons_of_neg (by simpa using hc)]
  have := key s.reverse
  rwa [List.reverse_reverse] at this

theorem splitPath_append {a n : Str} (hn : '/' ∉ n) (ha : a = [] ∨ a.getLast? = some '/') : splitPath (a ++ n) = (a, n) := by
  have hall : ∀ c ∈ n.reverse, decide (c ≠ '/') = true := by
    intro c hc
    simp only [ne_eq, decide_eq_true_eq]
    rintro rfl
    exact hn (by simpa using hc)
  unfold splitPath
  rw [List.reverse_append, List.dropWhile_append_of_pos hall, List.takeWhile_append_of_pos hall]
  rcases ha with rfl | ha
  · simp
  · rw [← List.head?_reverse] at ha
    cases hr : a.reverse with
    | nil => rw [hr] at ha; cases ha
    | cons c t =>
      rw [hr] at ha
      cases ha
      rw [List.dropWhile_cons_of_neg (by simp), List.takeWhile_cons_of_neg (by simp), ← hr]
      simp

theorem splitPath_join {a n : Str} (hn : '/' ∉ n) : ∃ g, splitPath (join a n) = (g, n) ∧ join a n = g ++ n ∧ parts g = parts a ∧
    ∀ m : Str, '/' ∉ m → join a m = g ++ m := by
  have hpre : ∀ m : Str, '/' ∉ m → ¬ ['/'].isPrefixOf m := by
    intro m hm h
    cases m with
    | nil => simp at h
    | cons c m => simp at h; exact hm (by simp [← h])
  by_cases h2 : a = [] ∨ a.getLast? = some '/'
  · have hj : ∀ m : Str, '/' ∉ m → join a m = a ++ m := fun m hm => by rw [join, if_neg (hpre m hm), if_pos h2]
    exact ⟨a, by rw [hj n hn, splitPath_append hn h2], hj n hn, rfl, hj⟩
  · have hj : ∀ m : Str, '/' ∉ m → join a m = (a ++ ['/']) ++ m := fun m hm => by
      rw [join, if_neg (hpre m hm), if_neg h2, List.append_assoc]; rfl
    refine ⟨a ++ ['/'], by rw [hj n hn, splitPath_append hn (.inr (by simp))], hj n hn, ?_, hj⟩
    simp only [parts, splitSlash_append, List.filter_append]
    simp [splitSlash]

theorem parts_dirname {a n : Str} (hn : '/' ∉ n) : parts (dirname (join a n)) = parts a := by
  obtain ⟨g, h1, _, h2, _⟩ := splitPath_join (a := a) hn
  unfold dirname
  rw [h1]
  split
  · exact h2
  · rw [parts_rstrip, h2]

theorem splitExtPath_join {a : Str} {r : Dn.Rdn} (hr : '/' ∉ r.text) (hne : r ≠ []) :
    splitExtPath (join a (dirName r)) = (join a r.text, ".dir".toList) := by
  obtain ⟨g, h1, _, _, h2⟩ := splitPath_join (a := a) (n := dirName r) (by
    unfold dirName
    rw [List.mem_append, not_or]
    exact ⟨hr, by decide⟩)
  unfold splitExtPath
  rw [h1, splitExt_dir hne, h2 _ hr]

theorem parts_of_eq {a b n : Str} (hn : IsName n) (h : parts a = parts b) : parts (join a n) = parts (join b n) := by
  rw [parts_join hn, parts_join hn, h]

/-- Only the components count. -/
theorem resolve_parts {fs : Fs} {a b : Str} (h : parts a = parts b) : resolve fs a = resolve fs b := by
  unfold resolve; rw [h]

theorem dirAt_congr {fs : Fs} {a b : Str} {p : Path} (h : parts a = parts b) (hb : DirAt fs b p) : DirAt fs a p :=
  ⟨(resolve_parts h).trans hb.path, hb.dir⟩

theorem dirname_join {a m n : Str} (hm : '/' ∉ m) (hm' : m ≠ []) (hn : '/' ∉ n) : dirname (join (join a m) n) = join a m := by
  obtain ⟨g, _, hg, _, _⟩ := splitPath_join (a := a) hm
  obtain ⟨m', c, rfl⟩ : ∃ m' c, m = m' ++ [c] := by
    rcases List.eq_nil_or_concat m with h | ⟨m', c, h⟩
    · exact absurd h hm'
    · exact ⟨m', c, by rw [h, List.concat_eq_append]⟩
  have hc : c ≠ '/' := fun h => hm (by simp [h])
  rw [hg]
  have hj : join (g ++ (m' ++ [c])) n = (g ++ (m' ++ [c]) ++ ['/']) ++ n := by
    rw [join, if_neg, if_neg]
    · simp
    · rintro (h | h)
      · simp at h
      · rw [← List.append_assoc, List.getLast?_concat, Option.some.injEq] at h
        exact hc h
    · intro h
      cases n with
      | nil => simp at h
      | cons c n => simp at h; exact hn (by simp [← h])
  unfold dirname
  rw [hj, splitPath_append hn (.inr (by simp))]
  rw [if_neg]
  · unfold rstripSlash
    simp [hc]
  · simp [hc]

/-- The path of the root of the tree, from that of an entry. -/
theorem climb_root {path : Str} {dn : Dn.Dn} (htext : ∀ e, e ≠ [] → e <:+ dn → Dn.Dn.text e ≠ []) (hs : NoSlash dn) (hne : dn ≠ []) :
    (climb dn (joinAll path (dn.reverse.map dirName))).2 = [] ∧
      parts (climb dn (joinAll path (dn.reverse.map dirName))).1 = parts path := by
  induction dn with
  | nil => exact absurd rfl hne
  | cons r up ih =>
    have hd : ∀ x ∈ r :: up, '/' ∉ dirName x := fun x hx => by
      unfold dirName
      rw [List.mem_append, not_or]
      exact ⟨slash_of hs hx, by decide⟩
    rw [climb, if_neg (htext _ (by simp) (List.suffix_refl _)), List.reverse_cons, List.map_append, List.map_cons, List.map_nil,
      joinAll_append]
    cases up with
    | nil => exact ⟨rfl, parts_dirname (hd r List.mem_cons_self)⟩
    | cons r' up =>
      have h1 : joinAll path ((r' :: up).reverse.map dirName) = join (joinAll path (up.reverse.map dirName)) (dirName r') := by
        rw [List.reverse_cons, List.map_append, List.map_cons, List.map_nil, joinAll_append]
      have h2 := ih (fun e he hsuf => htext e he (hsuf.trans (List.suffix_cons _ _))) (fun x hx => hs x (List.mem_cons_of_mem _ hx)) (by simp)
      rw [h1, dirname_join (hd r' (by simp)) (by simp [dirName]) (hd r List.mem_cons_self), ← h1]
      exact h2

/-! Renaming. -/

/-- The directory of an entry is renamed, if it is there. -/
theorem moveDir_moved {fs : Fs} (hw : WellFormed fs) {s t : Str} {p q : Path} (hs : resolve fs s = .ok p) (ht : resolve fs t = .ok q)
    (hp : p ≠ []) (hq : q ≠ []) (hne : ¬ p <+: q) (hfree : look fs q = none) :
    ∃ fs', moveDir fs s t none = (fs', .ok ()) ∧ Moved fs fs' p q := by
  unfold moveDir renameAny
  simp only [hs, ht, bind, Except.bind, hfree]
  cases hl : look fs p with
  | none => exact ⟨fs, rfl, moved_nothing hw hl hfree⟩
  | some x =>
    cases x with
    | dir =>
      simp only [List.isPrefixOf_iff_prefix, if_neg hne]
      exact ⟨_, rfl, fun x => look_moveAll hp hq (fun t => look_none_below hw hfree t) x⟩
    | file b =>
      simp only [apply, hs, ht, bind, Except.bind, hl, hfree]
      exact ⟨_, rfl, moved_file hw hp hq hne hl hfree⟩

/-- The file of an entry is renamed. -/
theorem moveFile_moved {fs : Fs} (hw : WellFormed fs) {s t : Str} {p q : Path} (hs : resolve fs s = .ok p) (ht : resolve fs t = .ok q)
    (hp : p ≠ []) (hq : q ≠ []) (hne : ¬ p <+: q) (hfree : look fs q = none) {b : Bytes} (hb : look fs p = some (.file b)) :
    ∃ fs', moveFile fs s t none = (fs', .ok ()) ∧ Moved fs fs' p q := by
  unfold moveFile renameAny
  simp only [hs, ht, bind, Except.bind, hb, apply, hfree]
  exact ⟨_, rfl, moved_file hw hp hq hne hb hfree⟩

end Verif.LdifTree
