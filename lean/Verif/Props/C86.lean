import Verif.Lemmas.LdifTreeMove
import Verif.Lemmas.RdnOctets
import Verif.Props.C77
import Verif.Props.C85
/-
C86  A modify DN request to a tree on disk: what is answered and what is stored.
-/
namespace Verif.C86
open Verif.LdifTree Verif.Spec Verif.Spec.Modify
open Verif.Server (Env ascii)
open Verif.Ldap (Obj PyVal)

variable {env : Env} {fs fs1 fs2 : Fs} {path : Str} {base : Path} {top : Verif.Attrs} {r r' : Dn.Rdn} {up up' : Dn.Dn} {h : Handle}

/-! ### Where everything is after the two renamings -/

theorem dirOf_cons (base : Path) (r : Dn.Rdn) (up : Dn.Dn) : dirOf base (r :: up) = dirOf base up ++ [dirName r] := by
  simp [dirOf]

theorem dirOf_append (base : Path) (pre d : Dn.Dn) : dirOf base (pre ++ d) = dirOf base d ++ pre.reverse.map dirName := by
  simp [dirOf]

theorem printable_suffix {d e : Dn.Dn} (h : PrintableDn e) (hs : d <:+ e) : PrintableDn d :=
  ⟨fun x hx => h.types x (hs.subset hx), fun x hx => h.rdns x (hs.subset hx)⟩

theorem noSlash_suffix {d e : Dn.Dn} (h : NoSlash e) (hs : d <:+ e) : NoSlash d := fun x hx => h x (hs.subset hx)

theorem printable_append {d e : Dn.Dn} (h : PrintableDn d) (h' : PrintableDn e) : PrintableDn (d ++ e) :=
  ⟨fun x hx => (List.mem_append.mp hx).elim (h.types x) (h'.types x), fun x hx => (List.mem_append.mp hx).elim (h.rdns x) (h'.rdns x)⟩

/-- A directory of the tree lies below another if its DN does. -/
theorem dir_prefix {d e : Dn.Dn} (hd : PrintableDn d) (he : PrintableDn e) : dirOf base d <+: dirOf base e ↔ d <:+ e := by
  constructor
  · rintro ⟨t, ht⟩
    have h1 : d.reverse.map dirName ++ t = e.reverse.map dirName := by
      refine List.append_cancel_left (as := base) ?_
      rw [← List.append_assoc]
      exact ht
    have h2 : d.reverse.map dirName = (e.reverse.take d.length).map dirName := by
      have := congrArg (List.take d.length) h1
      rw [List.take_left' (by simp)] at this
      rw [this, List.map_take]
    have h3 : (e.reverse.take d.length).reverse <:+ e := by
      rw [← List.reverse_prefix, List.reverse_reverse]
      exact List.take_prefix _ _
    have h4 : d = (e.reverse.take d.length).reverse := by
      refine C70.dir_injective (base := base) hd (printable_suffix he h3) ?_
      unfold dirOf
      rw [List.reverse_reverse, h2]
    rw [h4]
    exact h3
  · rintro ⟨pre, rfl⟩
    rw [dirOf_append]
    exact List.prefix_append _ _

/-- A file of the tree is no directory. -/
theorem file_prefix (d e : Dn.Dn) (x : Dn.Rdn) : ¬ dirOf base d ++ [ldifName x] <+: dirOf base e := by
  rintro ⟨t, ht⟩
  have h1 : d.reverse.map dirName ++ [ldifName x] ++ t = e.reverse.map dirName := by
    refine List.append_cancel_left (as := base) ?_
    rw [← List.append_assoc, ← List.append_assoc]
    exact ht
  have h2 : ldifName x ∈ e.reverse.map dirName := by rw [← h1]; simp
  obtain ⟨z, _, hz⟩ := List.mem_map.mp h2
  exact dir_ne_ldif _ _ hz

theorem file_file {d e : Dn.Dn} {x y : Dn.Rdn} (h1 : PrintableDn (x :: d)) (h2 : PrintableDn (y :: e)) :
    dirOf base d ++ [ldifName x] <+: dirOf base e ++ [ldifName y] ↔ x :: d = y :: e := by
  rw [List.prefix_concat_iff]
  constructor
  · rintro (h | h)
    · obtain ⟨rfl, rfl⟩ := C33.place_injective h1 h2 h; rfl
    · exact absurd h (file_prefix _ _ _)
  · intro h
    cases h
    exact .inl rfl

theorem dir_file {d e : Dn.Dn} {y : Dn.Rdn} (h1 : PrintableDn d) (h2 : PrintableDn e) (hd : d ≠ []) :
    dirOf base d <+: dirOf base e ++ [ldifName y] ↔ d <:+ e := by
  rw [List.prefix_concat_iff, dir_prefix h1 h2]
  constructor
  · rintro (h | h)
    · obtain ⟨x, d', rfl⟩ := List.exists_cons_of_ne_nil hd
      rw [dirOf_cons] at h
      exact absurd h (ne_dir_ldif _ _ _ _)
    · exact h
  · exact .inr

/-- What is where, by the names of the entries: the entry and those below it are under the new name. -/
structure Renamed (fs fs' : Fs) (base : Path) (old new : Dn.Dn) : Prop where
  dirs : ∀ pre, PrintableDn pre → look fs' (dirOf base (pre ++ new)) = look fs (dirOf base (pre ++ old))
  goneDirs : ∀ e, PrintableDn e → ¬ new <:+ e → old <:+ e → look fs' (dirOf base e) = none
  otherDirs : ∀ e, PrintableDn e → ¬ new <:+ e → ¬ old <:+ e → look fs' (dirOf base e) = look fs (dirOf base e)
  files : ∀ pre, PrintableDn pre → look fs' (placeOf base (pre ++ new)) = look fs (placeOf base (pre ++ old))
  goneFiles : ∀ e, PrintableDn e → ¬ new <:+ e → old <:+ e → look fs' (placeOf base e) = none
  otherFiles : ∀ e, e ≠ [] → PrintableDn e → ¬ new <:+ e → ¬ old <:+ e → look fs' (placeOf base e) = look fs (placeOf base e)

theorem placeOf_cons (base : Path) (r : Dn.Rdn) (up : Dn.Dn) : placeOf base (r :: up) = dirOf base up ++ [ldifName r] := rfl

theorem suffix_cons' {d : Dn.Dn} (h : (r :: up) <:+ d) : up <:+ d := (List.suffix_cons _ _).trans h

theorem renamed (hp : PrintableDn (r :: up)) (hp' : PrintableDn (r' :: up')) (hbelow : ¬ (r :: up) <:+ up')
    (habove : ¬ (r' :: up') <:+ up) (hne : r' :: up' ≠ r :: up)
    (h1 : Moved fs fs1 (dirOf base (r :: up)) (dirOf base (r' :: up')))
    (h2 : Moved fs1 fs2 (dirOf base up ++ [ldifName r]) (dirOf base up' ++ [ldifName r'])) :
    Renamed fs fs2 base (r :: up) (r' :: up') := by
  have dirs : ∀ e, look fs2 (dirOf base e) = look fs1 (dirOf base e) := fun e => by
    rw [h2, if_neg (file_prefix _ _ _), if_neg (file_prefix _ _ _)]
  have files : ∀ x a, PrintableDn (x :: a) → x :: a ≠ r :: up → x :: a ≠ r' :: up' →
      look fs2 (placeOf base (x :: a)) = look fs1 (placeOf base (x :: a)) := fun x a ha hx hx' => by
    rw [placeOf_cons, h2, if_neg (fun h => hx' ((file_file hp' ha).mp h).symm), if_neg (fun h => hx ((file_file hp ha).mp h).symm)]
  have hup := C85.printable_tail hp
  have hup' := C85.printable_tail hp'
  have below : ∀ {x : Dn.Rdn} {a d : Dn.Dn}, d <:+ x :: a → d ≠ x :: a → d <:+ a := by
    intro x a d h hn
    rcases List.suffix_cons_iff.mp h with h | h
    · exact absurd h hn
    · exact h
  refine ⟨fun pre hpre => ?_, fun e he hn ho => ?_, fun e he hn ho => ?_, fun pre hpre => ?_, fun e he hn ho => ?_, fun e hne' he hn ho => ?_⟩
  · have hq := (dir_prefix (base := base) hp' (printable_append hpre hp')).mpr (List.suffix_append _ _)
    rw [dirs, h1, if_pos hq, dirOf_append, List.drop_left, dirOf_append]
  · rw [dirs, h1, if_neg (fun h => hn ((dir_prefix hp' he).mp h)), if_pos ((dir_prefix hp he).mpr ho)]
  · rw [dirs, h1, if_neg (fun h => hn ((dir_prefix hp' he).mp h)), if_neg (fun h => ho ((dir_prefix hp he).mp h))]
  · cases pre with
    | nil =>
      rw [List.nil_append, List.nil_append, placeOf_cons, placeOf_cons, h2, if_pos (List.prefix_refl _), List.drop_length, List.append_nil, h1,
        if_neg (fun h => habove ((dir_file hp' hup (by simp)).mp h)),
        if_neg (fun h => by have := ((dir_file hp hup (by simp)).mp h).length_le; simp at this; omega)]
    | cons y pre =>
      have hall := printable_append hpre hp'
      rw [List.cons_append] at hall
      rw [List.cons_append, List.cons_append]
      rw [files _ _ hall ?_ ?_, placeOf_cons, placeOf_cons, h1,
        if_pos ((dir_file hp' (C85.printable_tail hall) (by simp)).mpr (List.suffix_append _ _)), dirOf_append, dirOf_append,
        List.append_assoc, List.drop_left, ← List.append_assoc]
      · intro e
        have : (r' :: up') <:+ (r :: up) := by rw [← e]; exact ⟨y :: pre, rfl⟩
        exact habove (below this hne)
      · intro e
        have := congrArg List.length e
        simp at this
        omega
  · cases e with
    | nil => simp at ho
    | cons x a =>
      by_cases hx : x :: a = r :: up
      · rw [hx, placeOf_cons, h2, if_neg (fun h => hne ((file_file hp' hp).mp h)), if_pos (List.prefix_refl _)]
      · rw [files x a he hx (fun h => hn (by rw [h]; exact List.suffix_refl _)), placeOf_cons, h1,
          if_neg (fun h => hn (((dir_file hp' (C85.printable_tail he) (by simp)).mp h).trans (List.suffix_cons _ _))),
          if_pos ((dir_file hp (C85.printable_tail he) (by simp)).mpr (below ho fun h => hx h.symm))]
  · obtain ⟨x, a, rfl⟩ := List.exists_cons_of_ne_nil hne'
    rw [files x a he (fun h => ho (by rw [h]; exact List.suffix_refl _)) (fun h => hn (by rw [h]; exact List.suffix_refl _)), placeOf_cons, h1,
      if_neg (fun h => hn (((dir_file hp' (C85.printable_tail he) (by simp)).mp h).trans (List.suffix_cons _ _))),
      if_neg (fun h => ho (((dir_file hp (C85.printable_tail he) (by simp)).mp h).trans (List.suffix_cons _ _)))]

/-! ### Lookups after the two renamings -/

theorem lookup_cons (x : Dn.Rdn) (e : Dn.Dn) : lookup env fs ⟨path, [], top⟩ (x :: e) =
    (lookup env fs ⟨path, [], top⟩ e).bind fun c => descend env fs c [x] := by
  rw [lookup_root, lookup_root, List.reverse_cons, descend_append]

theorem found_congr {a b : List Dn.Rdn} {x y : Dn.Rdn} (h1 : look fs2 (dirOf base (x :: a.reverse)) = look fs (dirOf base (y :: b.reverse)))
    (h2 : look fs2 (placeOf base (x :: a.reverse)) = look fs (placeOf base (y :: b.reverse))) :
    found fs2 base a x = found fs base b y ∧ loadAt env fs2 (base ++ a.map dirName ++ [ldifName x]) =
      loadAt env fs (base ++ b.map dirName ++ [ldifName y]) := by
  have e1 : ∀ (a : List Dn.Rdn) (x : Dn.Rdn), dirOf base (x :: a.reverse) = base ++ a.map dirName ++ [dirName x] := by simp [dirOf]
  have e2 : ∀ (a : List Dn.Rdn) (x : Dn.Rdn), placeOf base (x :: a.reverse) = base ++ a.map dirName ++ [ldifName x] := by
    simp [placeOf, dirName, ldifName]
  rw [e1, e1] at h1
  rw [e2, e2] at h2
  unfold found loadAt contentAt
  rw [h1, h2]
  exact ⟨rfl, rfl⟩

/-- One step, and what is found there. -/
theorem step (hw : WellFormed fs) (hb : DirAt fs path base) {x : Dn.Rdn} {e : Dn.Dn} (hp : PrintableDn (x :: e)) (hs : NoSlash (x :: e)) {c : Handle}
    (hc : lookup env fs ⟨path, [], top⟩ e = .ok c) : (descend env fs c [x]).map Handle.attrs =
      if found fs base e.reverse x then loadAt env fs (base ++ e.reverse.map dirName ++ [ldifName x]) else .error (.py .noSuchObject) := by
  rw [lookup_root] at hc
  obtain ⟨h1, h2⟩ := descend_ok hc
  have hd : c.dn = e := by rw [h2]; simp
  rw [descend_step hw hb (by simpa using C85.noSlash_reverse hs) h1, hd, if_neg (C35.text_ne hp (by simp))]
  split
  · cases loadAt env fs (base ++ e.reverse.map dirName ++ [ldifName x]) <;> rfl
  · rfl

theorem lookup_others (hw : WellFormed fs) (hw2 : WellFormed fs2) (hb : DirAt fs path base) (hb2 : DirAt fs2 path base)
    (hr : Renamed fs fs2 base (r :: up) (r' :: up')) {e : Dn.Dn} (he : PrintableDn e) (hs : NoSlash e) (hn : ¬ (r' :: up') <:+ e)
    (ho : ¬ (r :: up) <:+ e) : lookup env fs2 ⟨path, [], top⟩ e = lookup env fs ⟨path, [], top⟩ e := by
  rw [lookup_root, lookup_root]
  refine descend_congr hw hw2 hb hb2 _ (C85.noSlash_reverse hs) fun a x hpre => ?_
  have hsuf : x :: a.reverse <:+ e := by
    have := List.reverse_suffix.mpr hpre
    simpa using this
  have hp := printable_suffix he hsuf
  have hn' : ¬ (r' :: up') <:+ x :: a.reverse := fun h => hn (h.trans hsuf)
  have ho' : ¬ (r :: up) <:+ x :: a.reverse := fun h => ho (h.trans hsuf)
  have h1 := hr.otherDirs _ hp hn' ho'
  have h2 := hr.otherFiles _ (by simp) hp hn' ho'
  refine ⟨(found_congr (env := env) h1 h2).1, ?_⟩
  rwa [placeOf_cons, dirOf, List.reverse_reverse] at h2

theorem not_suffix_tail (x : Dn.Rdn) (d : Dn.Dn) : ¬ (x :: d) <:+ d := fun h => by
  have := h.length_le; simp at this; omega

theorem lookup_gone (hw : WellFormed fs) (hw2 : WellFormed fs2) (hb : DirAt fs path base) (hb2 : DirAt fs2 path base)
    (hr : Renamed fs fs2 base (r :: up) (r' :: up')) (hp : PrintableDn (r :: up)) (hs : NoSlash (r :: up))
    (hlook : lookup env fs ⟨path, [], top⟩ (r :: up) = .ok h) {pre : Dn.Dn}
    (hn : ¬ (r' :: up') <:+ pre ++ r :: up) : lookup env fs2 ⟨path, [], top⟩ (pre ++ r :: up) = .error (.py .noSuchObject) := by
  induction pre with
  | nil =>
    rw [List.nil_append] at hn ⊢
    rw [lookup_cons] at hlook ⊢
    rw [lookup_others hw hw2 hb hb2 hr (C85.printable_tail hp) (C85.noSlash_tail hs)
      (fun h => hn (h.trans (List.suffix_cons _ _))) (not_suffix_tail _ _)]
    cases hg : lookup env fs ⟨path, [], top⟩ up with
    | error e => rw [hg] at hlook; cases hlook
    | ok g =>
      have h1 := hr.goneDirs _ hp hn (List.suffix_refl _)
      have h2 := hr.goneFiles _ hp hn (List.suffix_refl _)
      rw [lookup_root] at hg
      simp only [Except.bind]
      rw [descend_step hw2 hb2 (by simpa using C85.noSlash_reverse hs) (descend_ok hg).1, if_neg]
      unfold found
      rw [show base ++ up.reverse.map dirName ++ [dirName r] = dirOf base (r :: up) by simp [dirOf], h1,
        show base ++ up.reverse.map dirName ++ [ldifName r] = placeOf base (r :: up) from rfl, h2]
      simp
  | cons x pre ih =>
    rw [List.cons_append, lookup_cons, ih fun h => hn (h.trans (List.suffix_cons _ _))]
    rfl

theorem lookup_moved (hw : WellFormed fs) (hw2 : WellFormed fs2) (hb : DirAt fs path base) (hb2 : DirAt fs2 path base)
    (hr : Renamed fs fs2 base (r :: up) (r' :: up')) (hp : PrintableDn (r :: up)) (hs : NoSlash (r :: up)) (hp' : PrintableDn (r' :: up'))
    (hs' : NoSlash (r' :: up')) (hbelow : ¬ (r :: up) <:+ up') {g g' : Handle}
    (hg : lookup env fs ⟨path, [], top⟩ up = .ok g) (hg' : lookup env fs ⟨path, [], top⟩ up' = .ok g') {pre : Dn.Dn} (hpre : PrintableDn pre)
    (hps : NoSlash pre) : (lookup env fs2 ⟨path, [], top⟩ (pre ++ r' :: up')).map Handle.attrs =
      (lookup env fs ⟨path, [], top⟩ (pre ++ r :: up)).map Handle.attrs := by
  induction pre with
  | nil =>
    have hg2 : lookup env fs2 ⟨path, [], top⟩ up' = .ok g' := by
      rw [lookup_others hw hw2 hb hb2 hr (C85.printable_tail hp') (C85.noSlash_tail hs') (not_suffix_tail _ _) hbelow, hg']
    rw [List.nil_append, List.nil_append, lookup_cons, lookup_cons, hg2, hg]
    simp only [Except.bind]
    obtain ⟨h1, h2⟩ := found_congr (env := env) (a := up'.reverse) (b := up.reverse) (x := r') (y := r)
      (by simpa using hr.dirs [] ⟨nofun, nofun⟩) (by simpa using hr.files [] ⟨nofun, nofun⟩)
    rw [step hw hb hp hs hg, step hw2 hb2 hp' hs' hg2, h1, h2]
  | cons x pre ih =>
    have hpre' := C85.printable_tail hpre
    have ih := ih hpre' (C85.noSlash_tail hps)
    rw [List.cons_append, List.cons_append, lookup_cons, lookup_cons]
    have a1 : ∀ d, PrintableDn d → PrintableDn (x :: (pre ++ d)) := fun d hd => by
      rw [← List.cons_append]; exact printable_append hpre hd
    have a2 : ∀ d, NoSlash d → NoSlash (x :: (pre ++ d)) := fun d hd y hy => by
      rw [← List.cons_append] at hy
      exact (List.mem_append.mp hy).elim (hps y) (hd y)
    cases hc : lookup env fs ⟨path, [], top⟩ (pre ++ r :: up) with
    | error e =>
      cases hc2 : lookup env fs2 ⟨path, [], top⟩ (pre ++ r' :: up') with
      | error e2 => rw [hc, hc2] at ih; cases ih; rfl
      | ok c2 => rw [hc, hc2] at ih; cases ih
    | ok c =>
      cases hc2 : lookup env fs2 ⟨path, [], top⟩ (pre ++ r' :: up') with
      | error e2 => rw [hc, hc2] at ih; cases ih
      | ok c2 =>
        simp only [Except.bind]
        obtain ⟨h1, h2⟩ := found_congr (env := env) (a := (pre ++ r' :: up').reverse) (b := (pre ++ r :: up).reverse) (x := x) (y := x)
          (by rw [List.reverse_reverse, List.reverse_reverse]; exact hr.dirs (x :: pre) hpre)
          (by rw [List.reverse_reverse, List.reverse_reverse]; exact hr.files (x :: pre) hpre)
        rw [step hw hb (a1 _ hp) (a2 _ hs) hc, step hw2 hb2 (a1 _ hp') (a2 _ hs') hc2, h1, h2]

/-! ### What `move` does -/

theorem noSlash_append {d e : Dn.Dn} (h : NoSlash d) (h' : NoSlash e) : NoSlash (d ++ e) :=
  fun x hx => (List.mem_append.mp hx).elim (h x) (h' x)

theorem slash_name {n s : Str} (hn : '/' ∉ n) (hs : '/' ∉ s) : '/' ∉ n ++ s := by
  rw [List.mem_append, not_or]; exact ⟨hn, hs⟩

/-- The path of the root may be spelled in another way. -/
theorem lookup_spelling {path' : Str} {top' : Verif.Attrs} (hw : WellFormed fs) (hb : DirAt fs path base) (hpath : parts path' = parts path)
    {e : Dn.Dn} (hp : PrintableDn e) (hs : NoSlash e) {c : Handle} (hc : lookup env fs ⟨path, [], top⟩ e = .ok c) :
    ∃ c', lookup env fs ⟨path', [], top'⟩ e = .ok c' := by
  induction e generalizing c with
  | nil => exact ⟨⟨path', [], top'⟩, by rw [lookup_root]; rfl⟩
  | cons x e ih =>
    rw [lookup_cons] at hc
    cases hg : lookup env fs ⟨path, [], top⟩ e with
    | error y => rw [hg] at hc; cases hc
    | ok g =>
      obtain ⟨g', hg'⟩ := ih (C85.printable_tail hp) (C85.noSlash_tail hs) hg
      rw [hg] at hc
      have h1 := step hw hb hp hs hg
      have h2 := step hw (dirAt_congr hpath hb) hp hs hg'
      have hc : descend env fs g [x] = .ok c := hc
      rw [← h1, hc] at h2
      rw [lookup_cons, hg']
      show ∃ c', descend env fs g' [x] = .ok c'
      cases hd : descend env fs g' [x] with
      | ok c' => exact ⟨c', rfl⟩
      | error y => rw [hd] at h2; cases h2

/-- The request can be carried out: the entry has a file, the new superior is there and has a directory, which is not below
the entry, and the new place is free. -/
structure Ready (fs : Fs) (base : Path) (old new : Dn.Dn) : Prop where
  file : ∃ b, look fs (placeOf base old) = some (.file b)
  dir : look fs (dirOf base new.up) = some .dir
  below : ¬ old <:+ new.up
  freeDir : look fs (dirOf base new) = none
  freeFile : look fs (placeOf base new) = none

/-- The two renamings. -/
theorem files_moved (hw : WellFormed fs) (hb : DirAt fs path base) (hplain : ['.', '.'] ∉ parts path) (hp : PrintableDn (r :: up))
    (hs : NoSlash (r :: up)) (hp' : PrintableDn (r' :: up')) (hs' : NoSlash (r' :: up')) (hready : Ready fs base (r :: up) (r' :: up'))
    (hlook : lookup env fs ⟨path, [], top⟩ (r :: up) = .ok h) {dst : Str} (hdst : parts dst = parts path ++ up'.reverse.map dirName) :
    ∃ fs1 fs2, moveDir fs h.path (join dst (dirName r')) none = (fs1, .ok ()) ∧
      moveFile fs1 (join (joinAll path (up.reverse.map dirName)) (ldifName r)) (join dst (ldifName r')) none = (fs2, .ok ()) ∧
      WellFormed fs2 ∧ DirAt fs2 path base ∧ DirAt fs2 dst (dirOf base up') ∧ Renamed fs fs2 base (r :: up) (r' :: up') ∧
      ∀ n s, look fs2 (dirOf base up' ++ [n ++ s ++ ".tmp".toList]) = look fs (dirOf base up' ++ [n ++ s ++ ".tmp".toList]) := by
  obtain ⟨hpath, hdn, hD, hDat, _⟩ := C85.found_place hw hb hs hlook
  obtain ⟨b, hfile⟩ := hready.file
  have hD' : look fs (dirOf base up') = some .dir := hready.dir
  have hbelow : ¬ (r :: up) <:+ up' := hready.below
  have hup := C85.printable_tail hp
  have hup' := C85.printable_tail hp'
  have hbase := dirAt_parts hplain hb
  have hdots : ∀ d : Dn.Dn, NoSlash d → ['.', '.'] ∉ parts path ++ d.reverse.map dirName := by
    intro d hd hm
    rcases List.mem_append.mp hm with hm | hm
    · exact hplain hm
    · exact (names_of hd _ hm).dots rfl
  have at_ : ∀ (f : Fs) (s : Str) (d : Dn.Dn), WellFormed f → NoSlash d → parts s = parts path ++ d.reverse.map dirName →
      look f (dirOf base d) = some .dir → DirAt f s (dirOf base d) := by
    intro f s d hf hd hps hl
    have e : dirOf base d = parts s := by rw [hps, hbase]; rfl
    rw [e] at hl ⊢
    exact dirAt_plain hf (by rw [hps]; exact hdots d hd) hl
  have hsrc : parts (joinAll path (up.reverse.map dirName)) = parts path ++ up.reverse.map dirName :=
    parts_joinAll (names_of (C85.noSlash_tail hs))
  have hr := slash_of hs (r := r) List.mem_cons_self
  have hr' := slash_of hs' (r := r') List.mem_cons_self
  have habove : ¬ (r' :: up') <:+ up := fun hx => by
    obtain ⟨pre, rfl⟩ := hx
    rw [dirOf_append, look_none_below hw hready.freeDir] at hD
    cases hD
  have hne : r' :: up' ≠ r :: up := fun e => by
    have h1 := hready.freeFile
    rw [e, hfile] at h1
    cases h1
  -- the directory
  have e1 : resolve fs h.path = .ok (dirOf base (r :: up)) := by
    rw [hpath, resolve_join hDat (isName_dir hr), dirOf_cons]
  have e2 : resolve fs (join dst (dirName r')) = .ok (dirOf base (r' :: up')) := by
    rw [resolve_join (at_ fs dst up' hw (C85.noSlash_tail hs') hdst hD') (isName_dir hr'), dirOf_cons]
  have np : ¬ dirOf base (r :: up) <+: dirOf base (r' :: up') := fun hx => by
    rcases List.suffix_cons_iff.mp ((dir_prefix hp hp').mp hx) with e | e
    · exact hne e.symm
    · exact hbelow e
  obtain ⟨fs1, g1, m1⟩ := moveDir_moved hw e1 e2 (by rw [dirOf_cons]; simp) (by rw [dirOf_cons]; simp) np hready.freeDir
  have nd : ¬ dirOf base (r :: up) <+: dirOf base up' := fun hx => hbelow ((dir_prefix hp hup').mp hx)
  have hw1 : WellFormed fs1 := by
    have m := m1
    rw [dirOf_cons base r' up'] at m
    exact m.wellFormed hw hD' nd
  have d1 : look fs1 (dirOf base up) = some .dir := by
    rw [m1, if_neg (fun hx => habove ((dir_prefix hp' hup).mp hx)),
      if_neg (fun hx => not_suffix_tail _ _ ((dir_prefix hp hup).mp hx)), hD]
  have d1' : look fs1 (dirOf base up') = some .dir := by
    rw [m1, if_neg (fun hx => not_suffix_tail _ _ ((dir_prefix hp' hup').mp hx)), if_neg nd, hD']
  -- the file
  have e3 : resolve fs1 (join (joinAll path (up.reverse.map dirName)) (ldifName r)) = .ok (dirOf base up ++ [ldifName r]) :=
    resolve_join (at_ fs1 _ up hw1 (C85.noSlash_tail hs) hsrc d1) (isName_ldif hr)
  have e4 : resolve fs1 (join dst (ldifName r')) = .ok (dirOf base up' ++ [ldifName r']) :=
    resolve_join (at_ fs1 dst up' hw1 (C85.noSlash_tail hs') hdst d1') (isName_ldif hr')
  have f1 : look fs1 (dirOf base up ++ [ldifName r]) = some (.file b) := by
    rw [m1, if_neg (fun hx => habove ((dir_file hp' hup (by simp)).mp hx)),
      if_neg (fun hx => not_suffix_tail _ _ ((dir_file hp hup (by simp)).mp hx))]
    exact hfile
  have f1' : look fs1 (dirOf base up' ++ [ldifName r']) = none := by
    rw [m1, if_neg (fun hx => not_suffix_tail _ _ ((dir_file hp' hup' (by simp)).mp hx)),
      if_neg (fun hx => hbelow ((dir_file hp hup' (by simp)).mp hx))]
    exact hready.freeFile
  obtain ⟨fs2, g2, m2⟩ := moveFile_moved hw1 e3 e4 (by simp) (by simp) (fun hx => hne ((file_file hp hp').mp hx).symm) f1' f1
  have hw2 : WellFormed fs2 := m2.wellFormed hw1 d1' (file_prefix _ _ _)
  have dirs : ∀ e, look fs2 (dirOf base e) = look fs1 (dirOf base e) := fun e => by
    rw [m2, if_neg (file_prefix _ _ _), if_neg (file_prefix _ _ _)]
  have hroot : look fs2 (dirOf base []) = some .dir := by
    rw [dirs, m1, if_neg (fun hx => by simpa using (dir_prefix (e := []) hp' ⟨nofun, nofun⟩).mp hx),
      if_neg (fun hx => by simpa using (dir_prefix (e := []) hp ⟨nofun, nofun⟩).mp hx)]
    simpa [dirOf] using hb.dir
  refine ⟨fs1, fs2, g1, g2, hw2, ?_, ?_, renamed hp hp' hbelow habove hne m1 m2, fun n s => ?_⟩
  · have := at_ fs2 path [] hw2 nofun (by simp) hroot
    simpa [dirOf] using this
  · exact at_ fs2 dst up' hw2 (C85.noSlash_tail hs') hdst (by rw [dirs]; exact d1')
  · have hq : ∀ (d : Dn.Dn) (x : Dn.Rdn), ¬ dirOf base d ++ [ldifName x] <+: dirOf base up' ++ [n ++ s ++ ".tmp".toList] := by
      intro d x hx
      rcases List.prefix_concat_iff.mp hx with hx | hx
      · exact ldif_ne_tmp _ _ (List.cons.inj (List.append_inj' hx rfl).2).1
      · exact file_prefix _ _ _ hx
    have hq' : ∀ d : Dn.Dn, PrintableDn d → d ≠ [] → ¬ d <:+ up' → ¬ dirOf base d <+: dirOf base up' ++ [n ++ s ++ ".tmp".toList] := by
      intro d hd hne hn hx
      rcases List.prefix_concat_iff.mp hx with hx | hx
      · obtain ⟨x, d', rfl⟩ := List.exists_cons_of_ne_nil hne
        rw [dirOf_cons] at hx
        exact dir_ne_tmp _ _ (List.cons.inj (List.append_inj' hx rfl).2).1
      · exact hn ((dir_prefix hd hup').mp hx)
    rw [m2, if_neg (hq _ _), if_neg (hq _ _), m1, if_neg (hq' _ hp' (by simp) (not_suffix_tail _ _)), if_neg (hq' _ hp (by simp) hbelow)]

/-- What a rename with the removal of the old RDN does to an entry (RFC 4511, 4.9): the values of the old RDN go, those of the
new RDN come. -/
def renames (old new : Dn.Rdn) (c : Content) : Content := fun n b =>
  (c n b ∧ ∀ a ∈ old, (n, b) ≠ Rename.pair a) ∨ ∃ a ∈ new, (n, b) = Rename.pair a

/-- The entry can be given the new RDN: it has the values of its RDN, it has values under the attributes of the new RDN, and
they are just those of the old RDN. -/
structure Fits (c : Content) (known : Bytes → Prop) (old new : Dn.Rdn) : Prop where
  oldTypes : ∀ a ∈ old, Utf8.AsciiBytes (Utf8.encode a.attributeType)
  newTypes : ∀ a ∈ new, Utf8.AsciiBytes (Utf8.encode a.attributeType)
  has : ∀ a ∈ old, c (Rename.pair a).1 (Rename.pair a).2
  once : (old.map Rename.pair).Nodup
  known : ∀ a ∈ new, known (Rename.pair a).1
  single : ∀ a ∈ new, ∀ b, c (Rename.pair a).1 b → ∃ o ∈ old, Rename.pair o = ((Rename.pair a).1, b)

/-- The entry has this attribute, perhaps without values. -/
def Known (d : Verif.Attrs) (n : Bytes) : Prop := ∃ p ∈ d, fold p.1.toBytes = n

/-- The values afterwards. -/
theorem new_values (hU : Sane env.U) {dn new : Dn.Dn} (hpn : PrintableDn new) {d : Verif.Attrs} (ht : rawOctets.Tidy d)
    (hn : ∀ p ∈ d, LdifName p.1.toBytes) (hf : Fits (content d) (Known d) r r') :
    ∃ e1 e2, Tree.rdnLoop env.U (fun v s => AttributeSet.remove s v) r ⟨dn, d⟩ = (e1, none) ∧
      Tree.rdnLoop env.U (fun v s => AttributeSet.add s v) r' e1 = (e2, none) ∧ Writable ⟨new, e2.attrs⟩ ∧
      Same (content e2.attrs) (renames r r' (content d)) := by
  obtain ⟨e1, h1, h2, h3, h4⟩ := Rename.removeRdn (e := ⟨dn, d⟩) hU hf.oldTypes ht hf.has hf.once
  have hk : Rename.Kinds (fun n => ∃ a ∈ r', (Rename.pair a).1 = n) e1.attrs := by
    intro p hp
    refine ⟨?_, fun _ v hv => h2.values p hp v hv⟩
    rintro ⟨a, ha, e⟩ v hv
    have hc : content e1.attrs (Rename.pair a).1 v.toBytes := ⟨p, hp, e.symm, v, hv, rfl⟩
    obtain ⟨hc1, hc2⟩ := (h4 _ _).mp hc
    obtain ⟨o, ho, e'⟩ := hf.single a ha _ hc1
    exact absurd e'.symm (hc2 o ho)
  obtain ⟨e2, g1, g2, g3, g4, g5⟩ := Rename.addRdn (e := e1) hU hf.newTypes (fun a ha => ⟨a, ha, rfl⟩) h2.toNamed hk (fun a ha => by
    obtain ⟨p, hp, e⟩ := hf.known a ha
    obtain ⟨q, hq, e'⟩ := h3.1 p hp
    exact ⟨q, hq, by rw [e']; exact e⟩)
  refine ⟨e1, e2, h1, g1, ⟨⟨fun k vs hk => (g2.names _ hk).ascii, g2.apart.imp fun h e => h e⟩, fun k vs hk => ?_, fun k vs hk => ?_,
    hpn.types, hpn.rdns⟩, fun n b => ?_⟩
  · obtain ⟨q, hq, e⟩ := (h3.trans g4).2 _ hk
    have := hn q hq
    rw [e] at this
    exact this
  · by_cases hT : ∃ a ∈ r', (Rename.pair a).1 = fold k.toBytes
    · exact .inl ((g3 _ hk).1 hT)
    · exact .inr ((g3 _ hk).2 hT)
  · rw [g5, h4]
    rfl

theorem eq_refl' (d : Dn.Dn) : Dn.Dn.eq env.U d d = true := by rw [Dn.Dn.eq_iff]

/-- What `move` does, up to the commit. -/
theorem move_eq (hw : WellFormed fs) (hb : DirAt fs path base) (hplain : ['.', '.'] ∉ parts path) (hp : PrintableDn (r :: up))
    (hs : NoSlash (r :: up)) (hp' : PrintableDn (r' :: up')) (hs' : NoSlash (r' :: up')) (hready : Ready fs base (r :: up) (r' :: up'))
    (hlook : lookup env fs ⟨path, [], top⟩ (r :: up) = .ok h) {g' : Handle} (hg' : lookup env fs ⟨path, [], top⟩ up' = .ok g')
    (hparent : up' = up ∨ Dn.Dn.eq env.U up' up = false) {e1 e2 : Entry}
    (h1 : Tree.rdnLoop env.U (fun v s => AttributeSet.remove s v) r ⟨h.dn, h.attrs⟩ = (e1, none))
    (h2 : Tree.rdnLoop env.U (fun v s => AttributeSet.add s v) r' e1 = (e2, none)) :
    ∃ dst fs2, WellFormed fs2 ∧ DirAt fs2 path base ∧ DirAt fs2 dst (dirOf base up') ∧ Renamed fs fs2 base (r :: up) (r' :: up') ∧
      (∀ n s, look fs2 (dirOf base up' ++ [n ++ s ++ ".tmp".toList]) = look fs (dirOf base up' ++ [n ++ s ++ ".tmp".toList])) ∧
      ∀ uuid faults, move env fs h (r' :: up') uuid none none faults =
        ((exec fs2 faults (putEntry (join dst r'.text) uuid (Ldif.toWire env ⟨r' :: up', e2.attrs⟩))).1,
          .ok (exec fs2 faults (putEntry (join dst r'.text) uuid (Ldif.toWire env ⟨r' :: up', e2.attrs⟩))).2) := by
  obtain ⟨hpath, hdn, _, _, _⟩ := C85.found_place hw hb hs hlook
  have hr := slash_of hs (r := r) List.mem_cons_self
  have hr' := slash_of hs' (r := r') List.mem_cons_self
  have hrne : r ≠ [] := hp.rdns r List.mem_cons_self
  have key : ∀ (np : Option Handle) (dst : Str), targetDir h np = dst →
      parts dst = parts path ++ up'.reverse.map dirName →
      ∃ fs2, WellFormed fs2 ∧ DirAt fs2 path base ∧ DirAt fs2 dst (dirOf base up') ∧ Renamed fs fs2 base (r :: up) (r' :: up') ∧
        (∀ n s, look fs2 (dirOf base up' ++ [n ++ s ++ ".tmp".toList]) = look fs (dirOf base up' ++ [n ++ s ++ ".tmp".toList])) ∧
        ∀ uuid faults, move2 env fs h np (r' :: up') uuid none none faults =
          ((exec fs2 faults (putEntry (join dst r'.text) uuid (Ldif.toWire env ⟨r' :: up', e2.attrs⟩))).1,
            .ok (exec fs2 faults (putEntry (join dst r'.text) uuid (Ldif.toWire env ⟨r' :: up', e2.attrs⟩))).2) := by
    intro np dst hnp hdst
    obtain ⟨fs1, fs2, m1, m2, hw2, hb2, hd2, hren, htmp⟩ := files_moved hw hb hplain hp hs hp' hs' hready hlook hdst
    refine ⟨fs2, hw2, hb2, hd2, hren, htmp, fun uuid faults => ?_⟩
    have hsplit : splitExtPath h.path = (join (joinAll path (up.reverse.map dirName)) r.text, ".dir".toList) := by
      rw [hpath]; exact splitExtPath_join hr hrne
    have hold : join (joinAll path (up.reverse.map dirName)) r.text ++ ".ldif".toList =
        join (joinAll path (up.reverse.map dirName)) (ldifName r) := join_append hr (by decide)
    have hstrip : stripDir (join dst (dirName r')) = .ok (join dst r'.text) := stripDir_join hr'
    unfold move2
    simp only [hdn] at h1 ⊢
    simp only [h1, h2, hnp]
    unfold moveFiles
    simp only [m1, hsplit, hold, m2, ne_eq, not_true_eq_false, if_false, commit, hstrip, bind, Except.bind, pure, Except.pure]
  have hsrc : parts (joinAll path (up.reverse.map dirName)) = parts path ++ up.reverse.map dirName :=
    parts_joinAll (names_of (C85.noSlash_tail hs))
  rcases hparent with e | e
  · obtain ⟨fs2, k1, k2, k3, k4, k5, k6⟩ := key none (dirname h.path) rfl (by
      rw [hpath, parts_dirname (n := dirName r) (slash_name hr (by decide)), hsrc, e])
    refine ⟨_, fs2, k1, k2, k3, k4, k5, fun uuid faults => ?_⟩
    unfold move
    rw [if_neg, k6 uuid faults]
    rw [hdn]
    show ¬ (!Dn.Dn.eq env.U up' up) = true
    rw [e, eq_refl']
    simp
  · have hclimb := climb_root (path := path) (dn := r :: up) (fun x hx hsuf => C35.text_ne (printable_suffix hp hsuf) hx) hs (by simp)
    have hhp : h.path = joinAll path ((r :: up).reverse.map dirName) := by
      rw [hpath, List.reverse_cons, List.map_append, List.map_cons, List.map_nil, joinAll_append]
    rw [← hhp] at hclimb
    obtain ⟨c1, c2⟩ := hclimb
    obtain ⟨p, hpl⟩ := lookup_spelling (path' := (climb (r :: up) h.path).1) (top' := []) hw hb c2 (C85.printable_tail hp') (C85.noSlash_tail hs') hg'
    have hpp : parts p.path = parts path ++ up'.reverse.map dirName := by
      have := hpl
      rw [lookup_root] at this
      rw [(descend_ok this).1, parts_joinAll (names_of (C85.noSlash_tail hs')), c2]
    obtain ⟨fs2, k1, k2, k3, k4, k5, k6⟩ := key (some p) p.path rfl hpp
    refine ⟨_, fs2, k1, k2, k3, k4, k5, fun uuid faults => ?_⟩
    have hmake : make env fs (climb h.dn h.path).1 (climb h.dn h.path).2 = .ok ⟨(climb (r :: up) h.path).1, [], []⟩ := by
      rw [hdn, c1, make, if_pos (by rfl : Dn.Dn.text [] = [])]
    unfold move
    rw [if_pos, hmake]
    · simp only
      rw [show Dn.Dn.up (r' :: up') = up' from rfl, hpl]
      exact k6 uuid faults
    · rw [hdn]
      show (!Dn.Dn.eq env.U up' up) = true
      rw [e]; rfl

/-! ### Modify DN requests -/

/-- The answer that says a modify DN request was carried out. -/
def success : Obj := (Op.result .modifyDN 0 [] []).build

theorem wanted {dnB newrdn : Bytes} {sup : Option Bytes} {d p : Dn.Dn} {x : Dn.Rdn} (ha : C77.Asks env.U dnB newrdn sup d x p) :
    modifyDNWanted env (.bytes dnB) (.bytes newrdn) (boolVal true) (optVal sup) none = .ok (d, x :: p) := by
  simp only [modifyDNWanted, Server.checkControls, C68.readDn_names ha.entry, C77.readRdn_names ha.rdn, C77.superior_parent ha.parent,
    Server.checkDeleteOld, boolVal, PyVal.truthy, Server.lift, bind, Except.bind, pure, Except.pure]
  rfl

/-- **C86** A request to rename an entry, or to move it, to a place that is free: it is answered with success; the entry is found
under its new name, what was below it is found below its new name, nothing is found under the old name or below, and every
other entry is as before.  If nothing raises, the entry has the values that RFC 4511 says; if the commit is cut short, it may
have the values it had before. -/
theorem renamed_partial (env : Env) (hU : Sane env.U) (fs : Fs) (hw : WellFormed fs) (path : Str) (base : Path)
    (hb : DirAt fs path base) (hplain : ['.', '.'] ∉ parts path) (top : Verif.Attrs) (dnB newrdn : Bytes) (sup : Option Bytes) (r r' : Dn.Rdn)
    (up up' : Dn.Dn) (ha : C77.Asks env.U dnB newrdn sup (r :: up) r' up') (hp : PrintableDn (r :: up)) (hs : NoSlash (r :: up))
    (hp' : PrintableDn (r' :: up')) (hs' : NoSlash (r' :: up')) (hready : Ready fs base (r :: up) (r' :: up')) (h g' : Handle)
    (hlook : lookup env fs ⟨path, [], top⟩ (r :: up) = .ok h) (hg' : lookup env fs ⟨path, [], top⟩ up' = .ok g')
    (hparent : up' = up ∨ Dn.Dn.eq env.U up' up = false) (ht : rawOctets.Tidy h.attrs) (hn : ∀ p ∈ h.attrs, LdifName p.1.toBytes)
    (hf : Fits (content h.attrs) (Known h.attrs) r r') (uuid : Str) (hu : '/' ∉ uuid)
    (hshort : ∀ e1 e2 text, Tree.rdnLoop env.U (fun v s => AttributeSet.remove s v) r ⟨h.dn, h.attrs⟩ = (e1, none) →
      Tree.rdnLoop env.U (fun v s => AttributeSet.add s v) r' e1 = (e2, none) →
      Ldif.toWire env ⟨r' :: up', e2.attrs⟩ = .ok text → ShortLines text)
    (htmp : ∀ n, look fs (dirOf base up' ++ [n ++ ".tmp".toList]) ≠ some .dir) (faults : List (Option Nat)) :
    ∃ fs' c, handleModifyDN env fs ⟨path, [], top⟩ uuid none none faults (.bytes dnB) (.bytes newrdn) (boolVal true) (optVal sup) none =
        (fs', .ok success) ∧
      lookup env fs' ⟨path, [], top⟩ (r' :: up') = .ok c ∧
      (Same (content c.attrs) (renames r r' (content h.attrs)) ∨ faults ≠ [] ∧ c.attrs = h.attrs) ∧
      (∀ pre, pre ≠ [] → PrintableDn pre → NoSlash pre → (lookup env fs' ⟨path, [], top⟩ (pre ++ r' :: up')).map Handle.attrs =
        (lookup env fs ⟨path, [], top⟩ (pre ++ r :: up)).map Handle.attrs) ∧
      (∀ pre, PrintableDn pre → NoSlash pre → lookup env fs' ⟨path, [], top⟩ (pre ++ r :: up) = .error (.py .noSuchObject)) ∧
      ∀ e, PrintableDn e → NoSlash e → ¬ (r :: up) <:+ e → ¬ (r' :: up') <:+ e →
        lookup env fs' ⟨path, [], top⟩ e = lookup env fs ⟨path, [], top⟩ e := by
  obtain ⟨_, hdn, hD, _, _⟩ := C85.found_place hw hb hs hlook
  have hr' := slash_of hs' (r := r') List.mem_cons_self
  have habove : ¬ (r' :: up') <:+ up := fun hx => by
    obtain ⟨pre, rfl⟩ := hx
    rw [dirOf_append, look_none_below hw hready.freeDir] at hD
    cases hD
  have hne : r' :: up' ≠ r :: up := fun e => by
    obtain ⟨b, hb⟩ := hready.file
    rw [← e, hready.freeFile] at hb
    cases hb
  have hapart : ∀ pre, ¬ (r' :: up') <:+ pre ++ r :: up := fun pre hx => by
    rcases List.suffix_or_suffix_of_suffix hx (List.suffix_append pre (r :: up)) with hx | hx
    · rcases List.suffix_cons_iff.mp hx with hx | hx
      · exact hne hx
      · exact habove hx
    · rcases List.suffix_cons_iff.mp hx with hx | hx
      · exact hne hx.symm
      · exact hready.below hx
  obtain ⟨e1, e2, h1, h2, hwr, hval⟩ := new_values (dn := h.dn) hU hp' ht hn hf
  obtain ⟨dst, fs2, hw2, hb2, hd2, hren, htmp2, hmove⟩ := move_eq hw hb hplain hp hs hp' hs' hready hlook hg' hparent h1 h2
  obtain ⟨text, htext, _⟩ := C29.entry_roundtrip env hU _ hwr
  obtain ⟨g, hg⟩ : ∃ g, lookup env fs ⟨path, [], top⟩ up = .ok g := by
    rw [lookup_cons] at hlook
    cases hx : lookup env fs ⟨path, [], top⟩ up with
    | ok g => exact ⟨g, rfl⟩
    | error e => rw [hx] at hlook; cases hlook
  have hmoved := fun pre (hpre : PrintableDn pre) (hps : NoSlash pre) =>
    lookup_moved hw hw2 hb hb2 hren hp hs hp' hs' hready.below hg hg' hpre hps
  obtain ⟨c2, hc2, hca⟩ : ∃ c2, lookup env fs2 ⟨path, [], top⟩ (r' :: up') = .ok c2 ∧ c2.attrs = h.attrs := by
    have := hmoved [] ⟨nofun, nofun⟩ nofun
    rw [List.nil_append, List.nil_append, hlook] at this
    cases hx : lookup env fs2 ⟨path, [], top⟩ (r' :: up') with
    | ok c2 => rw [hx] at this; exact ⟨c2, rfl, Except.ok.inj this⟩
    | error e => rw [hx] at this; cases this
  -- what is left to be said of the file system after the commit
  suffices hfin : ∃ fs' c, (exec fs2 faults (putEntry (join dst r'.text) uuid (Ldif.toWire env ⟨r' :: up', e2.attrs⟩))).1 = fs' ∧
      lookup env fs' ⟨path, [], top⟩ (r' :: up') = .ok c ∧
      (Same (content c.attrs) (renames r r' (content h.attrs)) ∨ faults ≠ [] ∧ c.attrs = h.attrs) ∧
      ∀ dn', PrintableDn dn' → NoSlash dn' → dn' ≠ r' :: up' →
        lookup env fs' ⟨path, [], top⟩ dn' = lookup env fs2 ⟨path, [], top⟩ dn' by
    obtain ⟨fs', c, hfs, hc, hv, hsame⟩ := hfin
    refine ⟨fs', c, ?_, hc, hv, fun pre hpre hpp hps => ?_, fun pre hpp hps => ?_, fun e he hes ho hn => ?_⟩
    · simp only [handleModifyDN, wanted ha, hlook, hmove uuid faults, hfs]
      rfl
    · rw [hsame _ (printable_append hpp hp') (noSlash_append hps hs') (fun e => by
        have := congrArg List.length e
        simp at this
        exact hpre this)]
      exact hmoved pre hpp hps
    · rw [hsame _ (printable_append hpp hp) (noSlash_append hps hs) (fun e => hapart pre (by rw [e]; exact List.suffix_refl _))]
      exact lookup_gone hw hw2 hb hb2 hren hp hs hlook (hapart pre)
    · rw [hsame _ he hes (fun e' => hn (by rw [e']; exact List.suffix_refl _))]
      exact lookup_others hw hw2 hb hb2 hren he hes hn ho
  cases hex : exec fs2 faults (putEntry (join dst r'.text) uuid (Ldif.toWire env ⟨r' :: up', e2.attrs⟩)) with
  | mk fs' b =>
    cases b with
    | true =>
      have hrun := exec_true hex
      have hstop := stopped_run hrun
      obtain ⟨k1, _, k3⟩ := stopped_putEntry hd2 hr' hu hstop
      obtain ⟨text', ht', hfile⟩ := run_putEntry_ok hd2 hr' hu hrun
      obtain ⟨⟨c, hc, _, hcv⟩, hothers⟩ := C85.after hU hw2 (wellFormed_stopped hw2 hstop) hb2 (hb2.keeps k3) hs' hc2 hwr ht'
        (hshort e1 e2 text' h1 h2 ht') k1 hfile
      refine ⟨fs', c, rfl, hc, .inl fun n b => ?_, hothers⟩
      rw [← hval n b]
      exact (C85.sameValues_content hcv n b).symm
    | false =>
      have hstop := exec_false (l := [_, _]) hex
      obtain ⟨k1, k2⟩ := stopped_before hd2 hr' hu hstop
      have hsame := fun dn' (hd : NoSlash dn') =>
        lookup_same (env := env) (as := top) hw2 (wellFormed_stopped hw2 hstop) hb2 (hb2.keeps k2) k1 dn' hd
      refine ⟨fs', c2, rfl, by rw [hsame _ hs', hc2], .inr ⟨fun hnil => ?_, hca⟩, fun dn' _ hds _ => hsame dn' hds⟩
      subst hnil
      obtain ⟨fs'', hrun, _⟩ := C33.run_putEntry (b := text) hd2 hr' hu
        (by
          have := htmp2 (r'.text ++ ['.']) uuid
          unfold tmpOf
          rw [this]
          exact htmp (r'.text ++ ['.'] ++ uuid)) (by
          have := hren.files [] ⟨nofun, nofun⟩
          rw [List.nil_append, List.nil_append, placeOf_cons] at this
          obtain ⟨b, hbf⟩ := hready.file
          rw [show r'.text ++ ".ldif".toList = ldifName r' from rfl, this, hbf]
          simp)
      rw [htext, exec_none hrun] at hex
      cases hex

/-- The only answer other than an error. -/
theorem answer_ok {root : Handle} {uuid : Str} {f1 f2 : Option Nat} {faults : List (Option Nat)} {entry newrdn del sup : PyVal}
    {controls : Option (List (PyVal × PyVal × PyVal))} {fs' : Fs} {o : Obj}
    (h : handleModifyDN env fs root uuid f1 f2 faults entry newrdn del sup controls = (fs', .ok o)) : o = success := by
  unfold handleModifyDN at h
  split at h
  · cases h
  · split at h
    · cases h
    · split at h
      · cases h
      · cases h; rfl

/-- **The property fails**: the answer does not depend on whether a system call of the commit raises. -/
theorem answer_regardless (env : Env) (fs : Fs) (root : Handle) (uuid : Str) (f1 f2 : Option Nat) (faults : List (Option Nat))
    (entry newrdn del sup : PyVal) (controls : Option (List (PyVal × PyVal × PyVal))) :
    (handleModifyDN env fs root uuid f1 f2 faults entry newrdn del sup controls).2 =
      (handleModifyDN env fs root uuid f1 f2 [] entry newrdn del sup controls).2 := by
  have key : ∀ h d dst new attrs, ((moveFiles env fs h dst d new attrs uuid f1 f2 faults).2.map fun _ => ()) =
      (moveFiles env fs h dst d new attrs uuid f1 f2 []).2.map fun _ => () := by
    intro h d dst new attrs
    unfold moveFiles
    split
    · rfl
    · split
      · rfl
      · split
        · rfl
        · simp only [commit, bind, Except.bind, pure, Except.pure]
          cases stripDir (join dst (dirName new)) <;> rfl
  have key2 : ∀ h np d, ((move2 env fs h np d uuid f1 f2 faults).2.map fun _ => ()) = (move2 env fs h np d uuid f1 f2 []).2.map fun _ => () := by
    intro h np d
    unfold move2
    split
    · rfl
    · rfl
    · split
      · rfl
      · split
        · rfl
        · exact key _ _ _ _ _
  have key3 : ∀ h d, ((move env fs h d uuid f1 f2 faults).2.map fun _ => ()) = (move env fs h d uuid f1 f2 []).2.map fun _ => () := by
    intro h d
    unfold move
    split
    · split
      · rfl
      · split
        · rfl
        · exact key2 _ _ _
    · exact key2 _ _ _
  unfold handleModifyDN
  split
  · rfl
  · split
    · rfl
    · rename_i d newDN _ _ h _
      have := key3 h newDN
      cases hx : move env fs h newDN uuid f1 f2 faults with
      | mk a x =>
        cases hy : move env fs h newDN uuid f1 f2 [] with
        | mk b y =>
          rw [hx, hy] at this
          cases x <;> cases y <;> simp [Except.map] at this
          · simp only [this]
          · rfl

/-- A request that is not understood, names an entry that is not there, or asks for an RDN that the entry cannot be given,
changes nothing on disk. -/
theorem refused_unchanged (env : Env) (fs : Fs) (root : Handle) (uuid : Str) (f1 f2 : Option Nat) (faults : List (Option Nat))
    (entry newrdn del sup : PyVal) (controls : Option (List (PyVal × PyVal × PyVal)))
    (h : (∃ f, modifyDNWanted env entry newrdn del sup controls = .error f) ∨
      ∃ d newDN, modifyDNWanted env entry newrdn del sup controls = .ok (d, newDN) ∧
        ((∃ e, lookup env fs root d = .error e) ∨
          ∃ h r r' up up' e1 x, lookup env fs root d = .ok h ∧ h.dn = r :: up ∧ newDN = r' :: up' ∧
            (Tree.rdnLoop env.U (fun v s => AttributeSet.remove s v) r ⟨h.dn, h.attrs⟩ = (e1, some x) ∨
              ∃ e2, Tree.rdnLoop env.U (fun v s => AttributeSet.remove s v) r ⟨h.dn, h.attrs⟩ = (e1, none) ∧
                Tree.rdnLoop env.U (fun v s => AttributeSet.add s v) r' e1 = (e2, some x)))) :
    ∃ f, handleModifyDN env fs root uuid f1 f2 faults entry newrdn del sup controls = (fs, .error f) := by
  rcases h with ⟨f, h⟩ | ⟨d, newDN, h, ⟨e, hl⟩ | ⟨hd, r, r', up, up', e1, x, hl, hdn, rfl, hloop⟩⟩
  · exact ⟨f, by simp only [handleModifyDN, h]⟩
  · exact ⟨faultOf e, by simp only [handleModifyDN, h, hl]⟩
  · have key : ∀ np, move2 env fs hd np (r' :: up') uuid f1 f2 faults = (fs, .error (.py x)) := by
      intro np
      unfold move2
      rw [hdn]
      rw [hdn] at hloop
      rcases hloop with h1 | ⟨e2, h1, h2⟩
      · simp only [h1]
      · simp only [h1, h2]
    obtain ⟨e, he⟩ : ∃ e, move env fs hd (r' :: up') uuid f1 f2 faults = (fs, .error e) := by
      unfold move
      split
      · split
        · exact ⟨_, rfl⟩
        · split
          · exact ⟨_, rfl⟩
          · exact ⟨_, key _⟩
      · exact ⟨_, key _⟩
    exact ⟨faultOf e, by simp only [handleModifyDN, h, hl, he]⟩

/-! An example: `dc=a`, below which is `cn=b,dc=a`, is renamed. -/

def z : Dn.Rdn := [⟨"dc".toList, "z".toList⟩]
def c : Dn.Rdn := [⟨"cn".toList, "c".toList⟩]
def hz : Handle := ⟨"/t/dc=z.dir".toList, [z], [(.bytes (ascii "dc"), [.bytes (ascii "z")])]⟩
def e2 : Entry := ⟨[C33.a], [(.bytes (ascii "dc"), [.text "z".toList])]⟩
def textZ : Bytes := ascii "dn: dc=z\ndc: z\n\n"

theorem example_lookup : lookup C70.env C70.after C70.root [C33.a] = .ok C70.ha := by decide +kernel
theorem example_tidy : rawOctets.Tidy C70.ha.attrs := by
  have h1 : ∀ p ∈ C70.ha.attrs, ∀ b ∈ p.1.toBytes, b.toNat < 128 := by decide +kernel
  have h2 : ∀ p ∈ C70.ha.attrs, p.1.isText = false := by decide +kernel
  have h3 : ∀ p ∈ C70.ha.attrs, ∀ v ∈ p.2, v.isText = false := by decide +kernel
  exact ⟨⟨fun p hp => ⟨h1 p hp, h2 p hp⟩, by decide +kernel⟩, fun p hp v hv => h3 p hp v hv, by decide +kernel⟩
theorem example_asks : C77.Asks C70.env.U (ascii "dc=a") (ascii "dc=z") none [C33.a] z [] :=
  ⟨⟨"dc=a".toList, by decide +kernel, by decide +kernel⟩, ⟨"dc=z".toList, by decide +kernel, by decide +kernel⟩, .kept⟩
theorem example_ready : Ready C70.after ["t".toList] [C33.a] [z] :=
  ⟨⟨ascii "dn: dc=a\ndc: a\n\n", by decide +kernel⟩, by decide +kernel, by decide +kernel, by decide +kernel, by decide +kernel⟩
theorem example_fits : Fits (content C70.ha.attrs) (Known C70.ha.attrs) C33.a z := by
  have h0 : ∀ p ∈ C70.ha.attrs, ∀ v ∈ p.2, (fold p.1.toBytes, v.toBytes) = (ascii "dc", ascii "a") := by decide +kernel
  have h1 : ∀ a ∈ C33.a, Rename.pair a = (ascii "dc", ascii "a") := by decide +kernel
  refine ⟨?_, ?_, ?_, by decide +kernel, ?_, ?_⟩
  · unfold Utf8.AsciiBytes; decide +kernel
  · unfold Utf8.AsciiBytes; decide +kernel
  · unfold content; decide +kernel
  · unfold Known; decide +kernel
  · rintro a ha b ⟨p, hp, e, v, hv, rfl⟩
    refine ⟨⟨"dc".toList, "a".toList⟩, by decide +kernel, ?_⟩
    rw [← e, h0 p hp v hv]
    decide +kernel

/-- All hypotheses of `renamed_partial` can be met. -/
example (faults : List (Option Nat)) : ∃ fs' d, handleModifyDN C70.env C70.after C70.root "v".toList none none faults (.bytes (ascii "dc=a"))
      (.bytes (ascii "dc=z")) (boolVal true) (optVal none) none = (fs', .ok success) ∧
    lookup C70.env fs' C70.root [z] = .ok d ∧
    (Same (content d.attrs) (renames C33.a z (content C70.ha.attrs)) ∨ faults ≠ [] ∧ d.attrs = C70.ha.attrs) ∧
    (lookup C70.env fs' C70.root [C33.b, z]).map Handle.attrs = .ok C70.bv ∧
    lookup C70.env fs' C70.root [C33.b, C33.a] = .error (.py .noSuchObject) := by
  have hn : ∀ p ∈ C70.ha.attrs, 58 ∉ p.1.toBytes ∧ 10 ∉ p.1.toBytes ∧ p.1.toBytes.head? ≠ some 32 ∧ p.1.toBytes.head? ≠ some 35 := by
    decide +kernel
  obtain ⟨fs', d, h1, h2, h3, h4, h5, _⟩ := renamed_partial C70.env asciiTables_sane C70.after (wellFormed_of_all (by decide +kernel)) "/t".toList
    ["t".toList] ⟨by decide +kernel, by decide +kernel⟩ (by decide +kernel) [] (ascii "dc=a") (ascii "dc=z") none C33.a z [] [] example_asks
    ⟨by decide +kernel, by decide +kernel⟩ (by unfold NoSlash; decide +kernel) ⟨by decide +kernel, by decide +kernel⟩
    (by unfold NoSlash; decide +kernel) example_ready C70.ha C70.root example_lookup (by decide +kernel) (.inl rfl) example_tidy
    (fun p hp => ⟨(hn p hp).1, (hn p hp).2.1, (hn p hp).2.2.1, (hn p hp).2.2.2⟩) example_fits "v".toList (by decide)
    (fun e1 e2' text h1 h2 ht a l c' htext hl => by
      have g1 : Tree.rdnLoop C70.env.U (fun v s => AttributeSet.remove s v) C33.a ⟨C70.ha.dn, C70.ha.attrs⟩ =
        (⟨[C33.a], [(.bytes (ascii "dc"), [])]⟩, none) := by decide +kernel
      rw [g1] at h1
      cases h1
      have g2 : Tree.rdnLoop C70.env.U (fun v s => AttributeSet.add s v) z ⟨[C33.a], [(.bytes (ascii "dc"), [])]⟩ = (e2, none) := by
        decide +kernel
      rw [g2] at h2
      cases h2
      have g3 : Ldif.toWire C70.env ⟨[z], e2.attrs⟩ = .ok textZ := by decide +kernel
      rw [g3] at ht
      cases ht
      have g4 : textZ.length ≤ 16384 := by decide +kernel
      rw [htext] at g4
      simp only [List.length_append] at g4
      omega)
    (C85.no_dir (by decide +kernel) _) faults
  refine ⟨fs', d, h1, h2, h3, ?_, ?_⟩
  · have g : (lookup C70.env C70.after C70.root [C33.b, C33.a]).map Handle.attrs = .ok C70.bv := by decide +kernel
    rw [← g]
    exact h4 [C33.b] (by simp) ⟨by decide +kernel, by decide +kernel⟩ (by unfold NoSlash; decide +kernel)
  · exact h5 [C33.b] ⟨by decide +kernel, by decide +kernel⟩ (by unfold NoSlash; decide +kernel)

/-- A request and the file system afterwards. -/
def done (fs : Fs) (f2 : Option Nat) (faults : List (Option Nat)) (dn newrdn : Bytes) (sup : Option Bytes) : Fs × Server.Act Obj :=
  handleModifyDN C70.env fs C70.root "v".toList none f2 faults (.bytes dn) (.bytes newrdn) (boolVal true) (optVal sup) none

theorem success_of {fs : Fs} {f2 : Option Nat} {faults : List (Option Nat)} {dn newrdn : Bytes} {sup : Option Bytes}
    (h : (done fs f2 faults dn newrdn sup).2.isOk = true) :
    done fs f2 faults dn newrdn sup = ((done fs f2 faults dn newrdn sup).1, .ok success) := by
  cases hd : done fs f2 faults dn newrdn sup with
  | mk fs' x =>
    cases x with
    | error e => rw [hd] at h; cases h
    | ok o => rw [answer_ok (show handleModifyDN _ _ _ _ _ _ _ _ _ _ _ _ = (fs', .ok o) from hd)]

/-- Also into another place: `cn=b,dc=a` to the top. -/
example : (done C70.after none [] (ascii "cn=b,dc=a") (ascii "cn=c") (some [])).2.isOk = true ∧
    lookup C70.env (done C70.after none [] (ascii "cn=b,dc=a") (ascii "cn=c") (some [])).1 C70.root [c] =
      .ok ⟨"/t/cn=c.dir".toList, [c], [(.bytes (ascii "cn"), [.bytes (ascii "c")]), (.bytes (ascii "x"), [.bytes [10, 200]])]⟩ := by
  decide +kernel

/-- A tree with one more entry. -/
def twoEntries : Fs := (["t".toList, "dc=a.dir".toList, "cn=c.ldif".toList], .file (ascii "dn: cn=c,dc=a\ncn: c\ny: 1\n\n")) :: C70.after

/-- **The property fails**: the new name is taken; the request is answered with success, and the entry that had the name is
gone. -/
theorem overwritten : ∃ fs' lost found, done twoEntries none [] (ascii "cn=b,dc=a") (ascii "cn=c") none = (fs', .ok success) ∧
    lookup C70.env twoEntries C70.root [c, C33.a] = .ok lost ∧ lookup C70.env fs' C70.root [c, C33.a] = .ok found ∧
    content lost.attrs (ascii "y") (ascii "1") ∧ ∀ v, ¬ content found.attrs (ascii "y") v := by
  refine ⟨(done twoEntries none [] (ascii "cn=b,dc=a") (ascii "cn=c") none).1,
    ⟨"/t/dc=a.dir/cn=c.dir".toList, [c, C33.a], [(.bytes (ascii "cn"), [.bytes (ascii "c")]), (.bytes (ascii "y"), [.bytes (ascii "1")])]⟩,
    ⟨"/t/dc=a.dir/cn=c.dir".toList, [c, C33.a], [(.bytes (ascii "cn"), [.bytes (ascii "c")]), (.bytes (ascii "x"), [.bytes [10, 200]])]⟩,
    success_of (by decide +kernel), by decide +kernel, by decide +kernel, ?_, ?_⟩
  · unfold content; decide +kernel
  · rintro v ⟨p, hp, e, _⟩
    have : ∀ p ∈ [(PyStr.bytes (ascii "cn"), [PyStr.bytes (ascii "c")]), (.bytes (ascii "x"), [.bytes [10, 200]])],
      fold p.1.toBytes ≠ ascii "y" := by decide +kernel
    exact this p hp e

/-- A tree in which the entry has two values under the attribute that names it. -/
def twoValues : Fs := [(["t".toList, "dc=a.dir".toList, "cn=b.ldif".toList], .file (ascii "dn: cn=b,dc=a\ncn: b\ncn: bb\n\n")),
  (["t".toList, "dc=a.dir".toList], .dir)] ++ C33.before

/-- **The property fails**: the entry has another value under the attribute that names it; then it has texts and octets there,
which cannot be written.  The request is answered with success, and the entry is found under its new name with its old
values, without the one that names it. -/
theorem stale : ∃ fs' found, done twoValues none [] (ascii "cn=b,dc=a") (ascii "cn=c") none = (fs', .ok success) ∧
    lookup C70.env fs' C70.root [c, C33.a] = .ok found ∧ content found.attrs (ascii "cn") (ascii "b") ∧
    ¬ content found.attrs (ascii "cn") (ascii "c") := by
  refine ⟨(done twoValues none [] (ascii "cn=b,dc=a") (ascii "cn=c") none).1,
    ⟨"/t/dc=a.dir/cn=c.dir".toList, [c, C33.a], [(.bytes (ascii "cn"), [.bytes (ascii "b"), .bytes (ascii "bb")])]⟩,
    success_of (by decide +kernel), by decide +kernel, ?_, ?_⟩
  · unfold content; decide +kernel
  · unfold content; decide +kernel

/-- **The property fails**: the second renaming raises, an error is reported, and the entries below are under the new name,
the entry itself under the old one. -/
theorem torn_apart : ∃ fs' f, done C70.after (some 0) [] (ascii "dc=a") (ascii "dc=z") none = (fs', .error f) ∧
    lookup C70.env fs' C70.root [C33.a] = .ok C70.ha ∧
    lookup C70.env fs' C70.root [C33.b, C33.a] = .error (.py .noSuchObject) ∧
    (lookup C70.env fs' C70.root [C33.b, z]).map Handle.attrs = .ok C70.bv := by
  cases hd : done C70.after (some 0) [] (ascii "dc=a") (ascii "dc=z") none with
  | mk fs' x =>
    have h1 : (done C70.after (some 0) [] (ascii "dc=a") (ascii "dc=z") none).2.isOk = false := by decide +kernel
    have h2 : let fs' := (done C70.after (some 0) [] (ascii "dc=a") (ascii "dc=z") none).1
        lookup C70.env fs' C70.root [C33.a] = .ok C70.ha ∧
        lookup C70.env fs' C70.root [C33.b, C33.a] = .error (.py .noSuchObject) ∧
        (lookup C70.env fs' C70.root [C33.b, z]).map Handle.attrs = .ok C70.bv := by decide +kernel
    rw [hd] at h1 h2
    cases x with
    | ok o => cases h1
    | error f => exact ⟨fs', f, rfl, h2⟩

/-- **The property fails**: the new superior is there but has nothing below it yet; the request is refused. -/
theorem below_leaf : ∃ g, lookup C70.env twoEntries C70.root [c, C33.a] = .ok g ∧
    (done twoEntries none [] (ascii "cn=b,dc=a") (ascii "cn=b") (some (ascii "cn=c,dc=a"))).2.isOk = false :=
  ⟨⟨"/t/dc=a.dir/cn=c.dir".toList, [c, C33.a], [(.bytes (ascii "cn"), [.bytes (ascii "c")]), (.bytes (ascii "y"), [.bytes (ascii "1")])]⟩,
    by decide +kernel, by decide +kernel⟩

end Verif.C86
