import Verif.Props.C33
/-
C34  Storing entries never touches files outside the tree directory.
-/
namespace Verif.C34
open Verif.LdifTree Verif.Spec
open Verif.Server (Env ascii)

/-- For a DN without slashes: whatever changes while an entry is stored, and wherever that stops, lies below the directory of
the tree.  Missing: DNs with a slash, for which it is false (`outside`). -/
theorem contained_partial (env : Env) (fs : Fs) (path : Str) (base : Path) (hb : DirAt fs path base)
    (uuid : Str) (hu : '/' ∉ uuid) (e : Entry) (hs : NoSlash e.dn) (steps : List Step)
    (hput : putSteps env fs path uuid e = .ok steps) (fs' : Fs) (hstop : Stopped fs steps fs')
    (q : Path) (hq : look fs' q ≠ look fs q) : ∃ n l, q = base ++ n :: l := by
  cases hdn : e.dn with
  | nil => rw [putSteps, hdn] at hput; cases hput
  | cons r up =>
    obtain ⟨h1, _⟩ := stopped_put hb hu hdn hs hput hstop
    have hbelow : ∀ x : Str, ∃ n l, dirOf base up ++ [x] = base ++ n :: l := by
      intro x
      unfold dirOf
      cases hc : up.reverse.map dirName with
      | nil => exact ⟨x, [], by simp⟩
      | cons d ds => exact ⟨d, ds ++ [x], by simp⟩
    by_cases e1 : q = dirOf base up ++ [tmpOf r.text uuid]
    · rw [e1]; exact hbelow _
    by_cases e2 : q = dirOf base up ++ [r.text ++ ".ldif".toList]
    · rw [e2]; exact hbelow _
    by_cases e3 : q = dirOf base up
    · subst e3
      cases hc : up.reverse.map dirName with
      | nil =>
        exfalso
        have : dirOf base up = base := by simp [dirOf, hc]
        rw [this, hb.dir] at hq
        exact hq (h1.keeps _ hb.dir)
      | cons d ds => exact ⟨d, ds, by simp [dirOf, hc]⟩
    · exact absurd (h1.others q e1 e2 e3) hq

/-- For DNs without slashes: an entry is read from, and stored in, the file that its DN names below the directory of the
tree, a directory for each superior. -/
theorem place (fs : Fs) (path : Str) (base : Path) (hb : DirAt fs path base) (dn : Dn.Dn) (hs : NoSlash dn) (p : Path)
    (h : resolve fs (entryPath path dn) = .ok p) : p = placeOf base dn := by
  cases dn with
  | nil => unfold entryPath at h; rw [hb.path] at h; cases h; rfl
  | cons r up =>
    unfold entryPath at h
    rw [resolve_below hb (names_of fun x hx => hs x (by simp [hx])) (isName_ldif (slash_of hs (by simp)))] at h
    cases hw : walk fs base (up.reverse.map dirName) with
    | error e => rw [hw] at h; cases h
    | ok q =>
      rw [hw] at h
      cases h
      rw [walk_ok hw]
      rfl

/-- Different DNs have different files.  (The DNs are those that C10 covers.) -/
theorem distinct (base : Path) (d d' : Dn.Dn) (h : PrintableDn d) (h' : PrintableDn d') (hn : d ≠ []) (hn' : d' ≠ [])
    (hp : placeOf base d = placeOf base d') : d = d' := by
  cases d with
  | nil => exact absurd rfl hn
  | cons r up =>
    cases d' with
    | nil => exact absurd rfl hn'
    | cons s up' =>
      obtain ⟨rfl, rfl⟩ := C33.place_injective h h' hp
      rfl

/-- A DN with a slash at the start of its attribute type. -/
def slash : Dn.Dn := [[⟨"/s/x".toList, "1".toList⟩]]

/-- The directory of the tree is `/t`; there is another one, `/s`. -/
def two : Fs := [(["t".toList], .dir), (["s".toList], .dir)]

example : WellFormed two ∧ DirAt two "/t".toList ["t".toList] :=
  ⟨wellFormed_of_all (by decide +kernel), ⟨by decide +kernel, by decide +kernel⟩⟩

/-- The DN is one that a client can send. -/
example : Dn.Dn.parse asciiTables "/s/x=1".toList = .ok slash := by decide +kernel

/-- With a slash the property is false: an entry is stored outside the tree.  The DN of an entry is enough to create or
replace a file with a name in `.ldif` in any directory. -/
theorem outside : put C33.env two "/t".toList "u".toList ⟨slash, []⟩ =
    .ok ((["s".toList, "x=1.ldif".toList], .file (ascii "dn: /s/x=1\n\n")) :: two) := by decide +kernel

/-- Looking up such a DN, as the server does with what a client asks for, reads a file outside the tree. -/
theorem lookup_outside : (lookup C33.env ((["s".toList, "x=1.ldif".toList], .file (ascii "dn: cn=q\npw: z\n\n")) :: two)
    ⟨"/t".toList, [], []⟩ slash).map Handle.attrs = .ok [(.bytes (ascii "pw"), [.bytes (ascii "z")])] := by decide +kernel

/-- And two different DNs have the same file. -/
theorem same_file : ∃ d d' : Dn.Dn, PrintableDn d ∧ PrintableDn d' ∧ d ≠ d' ∧
    Dn.Dn.eq asciiTables d d' = false ∧ ∀ fs path, resolve fs (entryPath path d) = resolve fs (entryPath path d') := by
  refine ⟨slash, [[⟨"//s/x".toList, "1".toList⟩]], ⟨by decide +kernel, by decide +kernel⟩, ⟨by decide +kernel, by decide +kernel⟩,
    by decide +kernel, by decide +kernel, fun fs path => ?_⟩
  have h1 : entryPath path slash = "/s/x=1.ldif".toList := by
    have : ldifName [⟨"/s/x".toList, "1".toList⟩] = "/s/x=1.ldif".toList := by decide +kernel
    simp only [slash, entryPath, this, joinAll, List.reverse_nil, List.map_nil, List.foldl_nil]
    rfl
  have h2 : entryPath path [[⟨"//s/x".toList, "1".toList⟩]] = "//s/x=1.ldif".toList := by
    have : ldifName [⟨"//s/x".toList, "1".toList⟩] = "//s/x=1.ldif".toList := by decide +kernel
    simp only [entryPath, this, joinAll, List.reverse_nil, List.map_nil, List.foldl_nil]
    rfl
  have h3 : parts "/s/x=1.ldif".toList = parts "//s/x=1.ldif".toList := by decide +kernel
  rw [h1, h2]
  unfold resolve
  rw [h3]

end Verif.C34
