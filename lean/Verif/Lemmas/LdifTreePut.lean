import Verif.Lemmas.LdifTree
/-
Storing an entry: what can be found in the file system while it is done.
-/
namespace Verif.LdifTree
open Verif.Spec
open Verif.Server (Env)

/-! Directories stay. -/

/-- Every directory is still there. -/
def Keeps (fs fs' : Fs) : Prop := ∀ q, look fs q = some .dir → look fs' q = some .dir

theorem locate_keeps {fs fs' : Fs} (h : Keeps fs fs') {p q : Path} {l : List Str} (hl : locate fs p l = .ok q) :
    locate fs' p l = .ok q := by
  induction l generalizing p with
  | nil => exact hl
  | cons c l ih =>
    cases l with
    | nil => exact hl
    | cons c' l =>
      rw [locate] at hl ⊢
      · split at hl
        · rename_i h2; rw [if_pos h2]; exact ih hl
        · rename_i h2
          rw [if_neg h2]
          split at hl <;> rename_i h3
          · rw [h _ h3]; exact ih hl
          · cases hl
          · cases hl
      · simp
      · simp

theorem _root_.Verif.Spec.DirAt.keeps {fs fs' : Fs} (h : Keeps fs fs') {path : Str} {base : Path} (hb : DirAt fs path base) :
    DirAt fs' path base := ⟨locate_keeps h hb.path, h _ hb.dir⟩

theorem keeps_set {fs : Fs} {p : Path} {n : Node} (hp : look fs p ≠ some .dir) : Keeps fs (set fs p n) := by
  intro q hq
  have : p ≠ [] := by rintro rfl; exact hp rfl
  rw [look_set this]
  split
  · rename_i h; exact absurd (h ▸ hq) hp
  · exact hq

theorem keeps_erase {fs : Fs} {p : Path} (hp : look fs p ≠ some .dir) : Keeps fs (erase fs p) := by
  intro q hq
  have : p ≠ [] := by rintro rfl; exact hp rfl
  rw [look_erase this]
  split
  · rename_i h; exact absurd (h ▸ hq) hp
  · exact hq

theorem Keeps.trans {a b c : Fs} (h : Keeps a b) (h' : Keeps b c) : Keeps a c := fun q hq => h' q (h q hq)

/-! Names. -/

theorem resolve_join {fs : Fs} {path : Str} {base : Path} (hb : DirAt fs path base) {n : Str} (hn : IsName n) :
    resolve fs (join path n) = .ok (base ++ [n]) := by
  have := resolve_below hb (ds := []) (by simp) hn
  simpa [joinAll, walk, Except.map] using this

theorem join_append {a n s : Str} (hn : '/' ∉ n) (hs : '/' ∉ s) : join a n ++ s = join a (n ++ s) := by
  have h : ∀ m : Str, '/' ∉ m → ¬ (['/'].isPrefixOf m = true) := by
    intro m hm
    cases m with
    | nil => simp
    | cons c m =>
      simp only [List.isPrefixOf, List.isPrefixOf_nil_left, Bool.and_true, beq_iff_eq]
      exact fun e => hm (by simp [← e])
  unfold join
  rw [if_neg (h n hn), if_neg (h (n ++ s) (by simp [hn, hs]))]
  split <;> simp

/-- The temporary name. -/
def tmpOf (n uuid : Str) : Str := n ++ ['.'] ++ uuid ++ ".tmp".toList

theorem tmpName_join {a n uuid : Str} (hn : '/' ∉ n) (hu : '/' ∉ uuid) : tmpName (join a n) uuid = join a (tmpOf n uuid) := by
  unfold tmpName tmpOf
  rw [join_append hn (by decide), join_append (by simp [hn]) hu, join_append (by simp [hn, hu]) (by decide)]

theorem isName_tmp {n uuid : Str} (hn : '/' ∉ n) (hu : '/' ∉ uuid) : IsName (tmpOf n uuid) :=
  isName_suffix (by simp [hn, hu]) (by decide) (by decide)

theorem ne_ldif_tmp (p q : Path) (a n uuid : Str) : p ++ [a ++ ".ldif".toList] ≠ q ++ [tmpOf n uuid] := by
  intro h
  exact ldif_ne_tmp _ _ (List.append_inj' h rfl |>.2 |> List.cons.inj |>.1)
theorem ne_dir_tmp (p q : Path) (a n uuid : Str) : p ++ [a ++ ".dir".toList] ≠ q ++ [tmpOf n uuid] := by
  intro h
  exact dir_ne_tmp _ _ (List.append_inj' h rfl |>.2 |> List.cons.inj |>.1)
theorem ne_dir_ldif (p q : Path) (a b : Str) : p ++ [a ++ ".dir".toList] ≠ q ++ [b ++ ".ldif".toList] := by
  intro h
  exact dir_ne_ldif _ _ (List.append_inj' h rfl |>.2 |> List.cons.inj |>.1)

/-! The three calls of `_putEntry`. -/

theorem stopped_nil {fs fs' : Fs} (h : Stopped fs [] fs') : fs' = fs := by cases h; rfl

/-- While an entry is stored, nothing changes but the temporary file and, at the end, the file. -/
theorem stopped_putEntry {fs fs' : Fs} {dir n uuid : Str} {D : Path} {content : Py Bytes} (hd : DirAt fs dir D)
    (hn : '/' ∉ n) (hu : '/' ∉ uuid) (h : Stopped fs (putEntry (join dir n) uuid content) fs') :
    (∀ q, q ≠ D ++ [tmpOf n uuid] → q ≠ D ++ [n ++ ".ldif".toList] → look fs' q = look fs q) ∧
    (look fs' (D ++ [n ++ ".ldif".toList]) = look fs (D ++ [n ++ ".ldif".toList]) ∨
      ∃ b, content = .ok b ∧ look fs' (D ++ [n ++ ".ldif".toList]) = some (.file b)) ∧ Keeps fs fs' := by
  have hl : IsName (n ++ ".ldif".toList) := isName_suffix hn (by decide) (by decide)
  have ht := isName_tmp hn hu
  have hne : D ++ [n ++ ".ldif".toList] ≠ D ++ [tmpOf n uuid] := ne_ldif_tmp _ _ _ _ _
  unfold putEntry at h
  rw [tmpName_join hn hu, join_append hn (by decide)] at h
  generalize n ++ ".ldif".toList = L at *
  generalize tmpOf n uuid = T at *
  have hT : D ++ [T] ≠ [] := by simp
  have hL : D ++ [L] ≠ [] := by simp
  cases h with
  | here => exact ⟨fun _ _ _ => rfl, .inl rfl, fun _ h => h⟩
  | later h1 h =>
    simp only [apply, resolve_join hd ht, bind, Except.bind] at h1
    split at h1
    · cases h1
    rename_i hnd
    cases h1
    have hk1 := keeps_set (n := .file []) (fun e => hnd e)
    have hd1 := hd.keeps hk1
    have look1 : ∀ q, look (set fs (D ++ [T]) (.file [])) q = if q = D ++ [T] then some (.file []) else look fs q :=
      look_set hT
    have hwrite : ∀ (b : Py Bytes) fs2, apply (set fs (D ++ [T]) (.file [])) (.write (join dir T) b) = .ok fs2 →
        ∃ c, b = .ok c ∧ fs2 = set (set fs (D ++ [T]) (.file [])) (D ++ [T]) (.file c) := by
      intro b fs2 h
      simp only [apply, resolve_join hd1 ht, bind, Except.bind, look1, if_true] at h
      cases b with
      | error e => cases h
      | ok c => exact ⟨c, rfl, by simpa using h.symm⟩
    have look2 : ∀ c q, look (set (set fs (D ++ [T]) (.file [])) (D ++ [T]) (.file c)) q =
        if q = D ++ [T] then some (.file c) else look fs q := by
      intro c q
      rw [look_set hT, look1]
      split <;> rfl
    have hk2 : ∀ c, Keeps fs (set (set fs (D ++ [T]) (.file [])) (D ++ [T]) (.file c)) := fun c =>
      hk1.trans (keeps_set (by rw [look1, if_pos rfl]; simp))
    cases h with
    | here => exact ⟨fun q h1 h2 => by rw [look1, if_neg h1], .inl (by rw [look1, if_neg hne]), hk1⟩
    | torn n l h =>
      obtain ⟨c, _, rfl⟩ := hwrite _ _ h
      exact ⟨fun q h1 h2 => by rw [look2, if_neg h1], .inl (by rw [look2, if_neg hne]), hk2 _⟩
    | later h2 h =>
      obtain ⟨c, rfl, rfl⟩ := hwrite _ _ h2
      cases h with
      | here => exact ⟨fun q h1 h2 => by rw [look2, if_neg h1], .inl (by rw [look2, if_neg hne]), hk2 _⟩
      | later h3 h =>
        cases stopped_nil h
        have hd2 := hd.keeps (hk2 c)
        simp only [apply, resolve_join hd2 ht, resolve_join hd2 hl, bind, Except.bind, look2, if_true, if_neg hne] at h3
        split at h3
        · simp at *
        · simp at *
        · cases h3
        · rename_i hb hnd2
          cases h3
          cases hb
          refine ⟨fun q h1 h2 => ?_, .inr ⟨_, rfl, ?_⟩, (hk2 _).trans ((keeps_erase (p := D ++ [T]) ?_).trans (keeps_set ?_))⟩
          · rw [look_set hL, if_neg h2, look_erase hT, if_neg h1, look2, if_neg h1]
          · rw [look_set hL, if_pos rfl]
          · rw [look2, if_pos rfl]; simp
          · rw [look_erase hT, if_neg hne, look2, if_neg hne]; exact fun e => hnd2 e

/-- What can be found while an entry is stored: nothing changes but the temporary file, the file and its directory. -/
structure Between (fs fs' : Fs) (D : Path) (n uuid : Str) (content : Py Bytes) : Prop where
  others : ∀ q, q ≠ D ++ [tmpOf n uuid] → q ≠ D ++ [n ++ ".ldif".toList] → q ≠ D → look fs' q = look fs q
  dir : look fs' D = look fs D ∨ look fs D = none ∧ look fs' D = some .dir
  file : look fs' (D ++ [n ++ ".ldif".toList]) = look fs (D ++ [n ++ ".ldif".toList]) ∨
    ∃ b, content = .ok b ∧ look fs' (D ++ [n ++ ".ldif".toList]) = some (.file b)
  keeps : Keeps fs fs'

theorem append_ne_self (D : Path) (x : Str) : D ≠ D ++ [x] := by
  intro h
  have := congrArg List.length h
  simp at this

theorem Between.refl (fs : Fs) (D : Path) (n uuid : Str) (c : Py Bytes) : Between fs fs D n uuid c :=
  ⟨fun _ _ _ _ => rfl, .inl rfl, .inl rfl, fun _ h => h⟩

theorem slash_of {d : Dn.Dn} (h : NoSlash d) {r : Dn.Rdn} (hr : r ∈ d) : '/' ∉ r.text := rdn_slash (h r hr)

theorem names_of {d : Dn.Dn} (h : NoSlash d) : ∀ n ∈ d.reverse.map dirName, IsName n := by
  intro n hn
  obtain ⟨r, hr, rfl⟩ := List.mem_map.mp hn
  exact isName_dir (slash_of h (List.mem_reverse.mp hr))

theorem joinAll_append (a : Str) (l : List Str) (n : Str) : joinAll a (l ++ [n]) = join (joinAll a l) n := by
  simp [joinAll, List.foldl_append]

theorem resolve_joinAll {fs : Fs} {path : Str} {base : Path} (hb : DirAt fs path base) {ds : List Str}
    (hd : ∀ d ∈ ds, IsName d) {q : Path} (h : walk fs base ds = .ok q) : DirAt fs (joinAll path ds) q := by
  refine ⟨?_, walk_dir h hb.dir⟩
  rcases List.eq_nil_or_concat ds with rfl | ⟨l, x, rfl⟩
  · simp only [walk, Except.ok.injEq] at h; subst h; exact hb.path
  · have h1 := walk_append (fs := fs) (p := base) (a := l) (b := [x])
    rw [List.concat_eq_append] at *
    rw [h1] at h
    rw [joinAll_append, resolve_below hb (fun d hm => hd d (by simp [hm])) (hd x (by simp))]
    cases hl : walk fs base l with
    | error e => rw [hl] at h; cases h
    | ok p =>
      rw [hl] at h
      have := walk_ok (h : walk fs p [x] = .ok q)
      subst this
      rfl

/-- The walk to the directory of the superiors of an entry. -/
theorem stopped_put {env : Env} {fs fs' : Fs} {path uuid : Str} {base : Path} (hb : DirAt fs path base)
    (hu : '/' ∉ uuid) {e : Entry} {r : Dn.Rdn} {up : Dn.Dn} (he : e.dn = r :: up) (hs : NoSlash e.dn) {steps : List Step}
    (h : putSteps env fs path uuid e = .ok steps) (h' : Stopped fs steps fs') :
    Between fs fs' (dirOf base up) r.text uuid (Ldif.toWire env e) ∧
      (look fs (dirOf base up) = none → up ≠ [] ∧ ∃ p up', up = p :: up' ∧ look fs (dirOf base up' ++ [ldifName p]) ≠ none) := by
  have hr : '/' ∉ r.text := slash_of hs (by simp [he])
  rw [putSteps, he] at h
  simp only [bind, Except.bind, pure, Except.pure] at h
  split at h
  · cases h
  rename_i v hp
  cases h
  cases up with
  | nil =>
    simp only [parentDir, Except.ok.injEq] at hp
    subst hp
    obtain ⟨h1, h2, hk⟩ := stopped_putEntry hb hr hu (by simpa using h')
    simp only [dirOf, List.reverse_nil, List.map_nil, List.append_nil]
    exact ⟨⟨fun q a b _ => h1 q a b, .inl (h1 _ (append_ne_self _ _) (append_ne_self _ _)), h2, hk⟩, fun h => by rw [hb.dir] at h; cases h⟩
  | cons p up =>
    have hup : NoSlash up := fun x hx => hs x (by rw [he]; simp [hx])
    have hpn : '/' ∉ p.text := slash_of hs (by rw [he]; simp)
    have hD : dirOf base (p :: up) = dirOf base up ++ [dirName p] := by simp [dirOf]
    simp only [parentDir] at hp
    have hrs := resolve_below hb (names_of hup) (isName_dir hpn)
    have hrl := resolve_below hb (names_of hup) (isName_ldif hpn)
    cases hw : walk fs base (up.reverse.map dirName) with
    | error x =>
      exfalso
      rw [hw] at hrs hrl
      simp only [pathExists, stat, hrs, hrl, Except.map] at hp
      cases hp
    | ok G =>
      have hG : G = dirOf base up := walk_ok hw
      have hgd := resolve_joinAll hb (names_of hup) hw
      rw [hw] at hrs hrl
      simp only [pathExists, stat, hrs, hrl, Except.map] at hp
      rw [hG] at hp hgd
      rw [hD]
      cases hl : look fs (dirOf base up ++ [dirName p]) with
      | none =>
        rw [hl] at hp
        simp only [Option.isSome_none, Bool.false_eq_true, if_false] at hp
        split at hp
        · rename_i hex
          cases hp
          refine ⟨?_, fun _ => ⟨by simp, p, up, rfl, by intro h; rw [h] at hex; cases hex⟩⟩
          cases h' with
          | here => exact Between.refl ..
          | later h1 h2 =>
            simp only [apply, resolve_join hgd (isName_dir hpn), bind, Except.bind, hl] at h1
            cases h1
            have hk : Keeps fs (set fs (dirOf base up ++ [dirName p]) .dir) := keeps_set (by rw [hl]; simp)
            have look1 : ∀ q, look (set fs (dirOf base up ++ [dirName p]) .dir) q =
              if q = dirOf base up ++ [dirName p] then some .dir else look fs q := look_set (by simp)
            have hd1 : DirAt (set fs (dirOf base up ++ [dirName p]) .dir) (join (joinAll path (up.reverse.map dirName)) (dirName p)) (dirOf base up ++ [dirName p]) := by
              refine ⟨resolve_join (hgd.keeps hk) (isName_dir hpn), ?_⟩
              rw [look1, if_pos rfl]
            obtain ⟨h3, h4, hk'⟩ := stopped_putEntry hd1 hr hu h2
            refine ⟨fun q a b c => ?_, .inr ⟨hl, ?_⟩, ?_, hk.trans hk'⟩
            · rw [h3 q a b, look1, if_neg c]
            · rw [h3 _ (append_ne_self _ _) (append_ne_self _ _), look1, if_pos rfl]
            · rw [look1, if_neg (append_ne_self _ _).symm] at h4
              exact h4
        · cases hp
      | some x =>
        rw [hl] at hp
        simp only [Option.isSome_some, if_true, Except.ok.injEq] at hp
        subst hp
        refine ⟨?_, by simp⟩
        cases x with
        | dir =>
          obtain ⟨h1, h2, hk⟩ := stopped_putEntry ⟨resolve_join hgd (isName_dir hpn), hl⟩ hr hu (by simpa using h')
          exact ⟨fun q a b _ => h1 q a b, .inl (h1 _ (append_ne_self _ _) (append_ne_self _ _)), h2, hk⟩
        | file c =>
          have hr' : resolve fs (tmpName (join (join (joinAll path (up.reverse.map dirName)) (dirName p)) r.text) uuid) = .error .notDir := by
            rw [tmpName_join hr hu, ← joinAll_append, resolve_below hb _ (isName_tmp hr hu)]
            · rw [walk_append, hw]
              simp [Except.bind, walk, hG, hl, Except.map]
            · intro d hd
              rcases List.mem_append.mp hd with hd | hd
              · exact names_of hup d hd
              · simp only [List.mem_singleton] at hd; subst hd; exact isName_dir hpn
          simp only [List.nil_append] at h'
          cases h' with
          | here => exact Between.refl ..
          | later h1 _ => simp only [apply, hr', bind, Except.bind] at h1; cases h1

end Verif.LdifTree

namespace Verif.LdifTree
open Verif.Spec
open Verif.Server (Env)

/-! Reading. -/

/-- The content of the file at a resolved path. -/
def contentAt (fs : Fs) (p : Path) : Except Err Bytes :=
  match look fs p with
  | none => .error .noEnt
  | some .dir => .error .isDir
  | some (.file b) => .ok b

/-- The content of a file below some directories. -/
def fetch (fs : Fs) (p : Path) (ds : List Str) (n : Str) : Except Err Bytes :=
  (walk fs p ds).bind fun q => contentAt fs (q ++ [n])

theorem openRead_below {fs : Fs} {path : Str} {base : Path} (hb : DirAt fs path base) {ds : List Str} {n : Str}
    (hd : ∀ d ∈ ds, IsName d) (hn : IsName n) : openRead fs (join (joinAll path ds) n) = fetch fs base ds n := by
  unfold openRead fetch
  rw [resolve_below hb hd hn]
  cases walk fs base ds with
  | error e => rfl
  | ok q => rfl

theorem openRead_entry {fs : Fs} {path : Str} {base : Path} (hb : DirAt fs path base) {r : Dn.Rdn} {up : Dn.Dn}
    (hs : NoSlash (r :: up)) : openRead fs (entryPath path (r :: up)) = fetch fs base (up.reverse.map dirName) (ldifName r) :=
  openRead_below hb (names_of fun x hx => hs x (by simp [hx])) (isName_ldif (slash_of hs (by simp)))

theorem look_none_below {fs : Fs} (hw : WellFormed fs) {p : Path} (h : look fs p = none) (l : List Str) :
    look fs (p ++ l) = none := by
  induction l generalizing p with
  | nil => simpa using h
  | cons x l ih =>
    have : look fs (p ++ [x]) = none := by
      cases e : look fs (p ++ [x]) with
      | none => rfl
      | some n => rw [hw p x (by rw [e]; simp)] at h; cases h
    simpa using ih this

theorem fetch_none {fs : Fs} (hw : WellFormed fs) {p : Path} (h : look fs p = none) (ds : List Str) (n : Str) :
    fetch fs p ds n = .error .noEnt := by
  cases ds with
  | nil => simp [fetch, walk, Except.bind, contentAt, look_none_below hw h]
  | cons d ds => simp [fetch, walk, Except.bind, look_none_below hw h]

theorem fetch_cons (fs : Fs) (p : Path) (d : Str) (ds : List Str) (n : Str) : fetch fs p (d :: ds) n =
    match look fs (p ++ [d]) with
    | some .dir => fetch fs (p ++ [d]) ds n
    | some (.file _) => .error .notDir
    | none => .error .noEnt := by
  rw [fetch, walk]
  split <;> rename_i h <;> simp [fetch, Except.bind, h]

/-- A reader finds the old file, or the new one where it belongs. -/
theorem fetch_between {fs fs' : Fs} (hw : WellFormed fs) {D : Path} {n uuid : Str} {c : Py Bytes}
    (hD : look fs D = none → ∃ q a, D = q ++ [a ++ ".dir".toList]) (h : Between fs fs' D n uuid c) (p : Path) (ds : List Str) (hd : ∀ d ∈ ds, ∃ a, d = a ++ ".dir".toList) (x : Str) :
    fetch fs' p ds (x ++ ".ldif".toList) = fetch fs p ds (x ++ ".ldif".toList) ∨
      p ++ ds ++ [x ++ ".ldif".toList] = D ++ [n ++ ".ldif".toList] ∧
        ∃ b, c = .ok b ∧ fetch fs' p ds (x ++ ".ldif".toList) = .ok b := by
  induction ds generalizing p with
  | nil =>
    simp only [fetch, walk, Except.bind, List.append_nil, contentAt]
    by_cases e1 : p ++ [x ++ ".ldif".toList] = D ++ [n ++ ".ldif".toList]
    · rw [e1]
      rcases h.file with h | ⟨b, hb, h⟩
      · exact .inl (by rw [h])
      · exact .inr ⟨rfl, b, hb, by rw [h]⟩
    · by_cases e2 : p ++ [x ++ ".ldif".toList] = D
      · rw [e2]
        rcases h.dir with h | ⟨h, h'⟩
        · exact .inl (by rw [h])
        · obtain ⟨q, a, hq⟩ := hD h
          exact absurd (hq.symm.trans e2.symm) (ne_dir_ldif _ _ _ _)
      · exact .inl (by rw [h.others _ (ne_ldif_tmp _ _ _ _ _) e1 e2])
  | cons d ds ih =>
    obtain ⟨a, rfl⟩ := hd d List.mem_cons_self
    have hd' : ∀ d ∈ ds, ∃ a, d = a ++ ".dir".toList := fun d h => hd d (List.mem_cons_of_mem _ h)
    have := ih (p ++ [a ++ ".dir".toList]) hd'
    rw [fetch_cons, fetch_cons]
    by_cases e : look fs' (p ++ [a ++ ".dir".toList]) = look fs (p ++ [a ++ ".dir".toList])
    · rw [e]
      split
      · simpa using this
      · exact .inl rfl
      · exact .inl rfl
    · have hD : p ++ [a ++ ".dir".toList] = D :=
        Classical.byContradiction fun hD => e (h.others _ (ne_dir_tmp _ _ _ _ _) (ne_dir_ldif _ _ _ _) hD)
      rw [hD] at e this ⊢
      rcases h.dir with h | ⟨h, h'⟩
      · exact absurd h e
      · rw [h, h']
        simp only
        rw [fetch_none hw h] at this
        have e2 : p ++ (a ++ ".dir".toList) :: ds ++ [x ++ ".ldif".toList] = D ++ ds ++ [x ++ ".ldif".toList] := by
          rw [← hD]; simp
        rw [e2]
        exact this

end Verif.LdifTree
