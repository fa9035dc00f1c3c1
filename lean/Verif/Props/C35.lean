import Verif.Lemmas.LdifTreeLookup
import Verif.Props.C33
/-
C35  A deleted on-disk entry is gone.
-/
namespace Verif.C35
open Verif.LdifTree Verif.Spec
open Verif.Server (Env ascii)

theorem text_ne {dn : Dn.Dn} (h : PrintableDn dn) (hn : dn ≠ []) : dn.text ≠ [] := by
  intro e
  have h1 := Dn.Dn.parse_text asciiTables dn ⟨h.types, fun h' => h.rdns [] (by rw [h']; simp) rfl⟩
  rw [e] at h1
  have h2 : Dn.Dn.parse asciiTables [] = .ok [] := rfl
  rw [h2] at h1
  cases h1
  exact hn rfl

/-- A successful delete removes the file of the entry. -/
theorem delete_erases {env : Env} {fs fs' : Fs} {path : Str} {base : Path} (hb : DirAt fs path base) {h : Handle}
    {r : Dn.Rdn} {up : List Dn.Rdn} (hs : NoSlash (up ++ [r])) (hp : h.path = join (joinAll path (up.map dirName)) (dirName r))
    (hd : delete env fs h = .ok fs') : walk fs base (up.map dirName) = .ok (base ++ up.map dirName) ∧
      (∃ b, look fs (base ++ up.map dirName ++ [ldifName r]) = some (.file b)) ∧
      fs' = erase fs (base ++ up.map dirName ++ [ldifName r]) := by
  have hr : '/' ∉ r.text := slash_of hs (by simp)
  have hup := names_of' (d := up) fun x hx => hs x (by simp [hx])
  unfold delete at hd
  split at hd
  · cases hd
  · simp only [bind, Except.bind] at hd
    split at hd
    · cases hd
    · split at hd
      · cases hd
      · rw [hp, show dirName r = r.text ++ ".dir".toList from rfl, stripDir_join hr] at hd
        simp only at hd
        rw [join_append hr (by decide)] at hd
        simp only [apply, bind, Except.bind] at hd
        rw [show r.text ++ ".ldif".toList = ldifName r from rfl, resolve_below hb hup (isName_ldif hr)] at hd
        cases hw : walk fs base (up.map dirName) with
        | error e => rw [hw] at hd; cases hd
        | ok q =>
          have := walk_ok hw
          subst this
          rw [hw] at hd
          simp only [Except.map] at hd
          split at hd
          · cases hd
          · cases hd
          · rename_i b hl
            cases hd
            exact ⟨rfl, ⟨b, hl⟩, rfl⟩

/-- After an entry found by a lookup has been deleted, a lookup of its DN fails, except that a directory left behind under its
name is taken for an entry without attributes.  Missing: that there is no such directory; it stays if the entry ever had
entries below it (`still_found`). -/
theorem after_delete_partial (env : Env) (fs fs' : Fs) (path : Str) (base : Path) (hb : DirAt fs path base)
    (attrs : Verif.Attrs) (dn : Dn.Dn) (hn : dn ≠ []) (hd : PrintableDn dn) (hs : NoSlash dn) (h : Handle)
    (hfound : lookup env fs ⟨path, [], attrs⟩ dn = .ok h) (hdel : delete env fs h = .ok fs') :
    lookup env fs' ⟨path, [], attrs⟩ dn =
      if isDir fs h.path then .ok ⟨h.path, dn, []⟩ else .error (.py .noSuchObject) := by
  rw [lookup_root] at hfound ⊢
  obtain ⟨up, r, hdr⟩ : ∃ up r, dn.reverse = up ++ [r] := by
    rcases List.eq_nil_or_concat dn.reverse with h | ⟨l, r, h⟩
    · exact absurd (by simpa using h) hn
    · exact ⟨l, r, by simpa using h⟩
  have hdn : dn = r :: up.reverse := by
    have := congrArg List.reverse hdr
    simpa using this
  have hs' : NoSlash (up ++ [r]) := by
    rw [← hdr]; intro x hx; exact hs x (by simpa using hx)
  rw [hdr] at hfound ⊢
  obtain ⟨h1, h2⟩ := descend_ok hfound
  simp only [List.map_append, List.map_cons, List.map_nil, joinAll_append] at h1
  obtain ⟨hw, ⟨b, hl⟩, rfl⟩ := delete_erases hb hs' h1 hdel
  have hel : Elsewhere fs (erase fs (base ++ up.map dirName ++ [ldifName r])) (base ++ up.map dirName) r.text := by
    refine ⟨fun q hq => ?_, keeps_erase (by rw [hl]; simp)⟩
    rw [look_erase (by simp)]
    exact if_neg hq
  have hb' := hb.keeps hel.keeps
  rw [descend_append] at hfound ⊢
  rw [hel.descend hb up (fun x hx => hs' x (by simp [hx]))]
  · cases hc : descend env fs ⟨path, [], attrs⟩ up with
    | error e => rw [hc] at hfound; cases hfound
    | ok c =>
      obtain ⟨h3, h4⟩ := descend_ok hc
      have hr : '/' ∉ r.text := slash_of hs' (by simp)
      have hup := names_of' (d := up) fun x hx => hs' x (by simp [hx])
      have e1 : isDir (erase fs (base ++ up.map dirName ++ [ldifName r])) (join c.path (dirName r)) = isDir fs h.path := by
        rw [h1, h3]
        unfold isDir
        rw [hel.stat_dir hb hs']
      have e2 : isFile (erase fs (base ++ up.map dirName ++ [ldifName r])) (join c.path (ldifName r)) = false := by
        rw [h3]
        unfold isFile stat
        rw [resolve_below hb' hup (isName_ldif hr), hel.walk (dirs_end up), hw]
        simp only [Except.map]
        rw [look_erase (by simp), if_pos rfl]
      have e3 : openRead (erase fs (base ++ up.map dirName ++ [ldifName r])) (join c.path (ldifName r)) = .error .noEnt := by
        rw [h3, openRead_below hb' hup (isName_ldif hr), fetch, hel.walk (dirs_end up), hw]
        simp only [Except.bind, contentAt]
        rw [look_erase (by simp), if_pos rfl]
      have e4 : r :: c.dn = dn := by rw [h4, hdn]; simp
      simp only [Except.bind, descend, e1, e2, make, load_eq hr, e3, e4, if_neg (text_ne hd hn)]
      cases hi : isDir fs h.path with
      | true => simp [h1, h3, bind, Except.bind, pure, Except.pure]
      | false => simp
  · rintro a x ⟨t, ht⟩ he
    have := congrArg List.length he
    simp only [List.length_append, List.length_map, List.length_singleton] at this
    have := congrArg List.length ht
    simp only [List.length_append, List.length_singleton] at this
    omega

/-- In particular an entry that never had entries below it is gone. -/
theorem gone_partial (env : Env) (fs fs' : Fs) (path : Str) (base : Path) (hb : DirAt fs path base)
    (attrs : Verif.Attrs) (dn : Dn.Dn) (hn : dn ≠ []) (hd : PrintableDn dn) (hs : NoSlash dn) (h : Handle)
    (hfound : lookup env fs ⟨path, [], attrs⟩ dn = .ok h) (hdel : delete env fs h = .ok fs') (hdir : isDir fs h.path = false) :
    lookup env fs' ⟨path, [], attrs⟩ dn = .error (.py .noSuchObject) := by
  rw [after_delete_partial env fs fs' path base hb attrs dn hn hd hs h hfound hdel, hdir]; rfl

/-- Deleting an entry changes nothing but its file. -/
theorem others_kept (env : Env) (fs fs' : Fs) (path : Str) (base : Path) (hb : DirAt fs path base)
    (attrs : Verif.Attrs) (dn : Dn.Dn) (hn : dn ≠ []) (hs : NoSlash dn) (h : Handle)
    (hfound : lookup env fs ⟨path, [], attrs⟩ dn = .ok h) (hdel : delete env fs h = .ok fs') (q : Path)
    (hq : q ≠ placeOf base dn) : look fs' q = look fs q := by
  rw [lookup_root] at hfound
  obtain ⟨up, r, hdr⟩ : ∃ up r, dn.reverse = up ++ [r] := by
    rcases List.eq_nil_or_concat dn.reverse with h | ⟨l, r, h⟩
    · exact absurd (by simpa using h) hn
    · exact ⟨l, r, by simpa using h⟩
  have hdn : dn = r :: up.reverse := by
    have := congrArg List.reverse hdr
    simpa using this
  have hs' : NoSlash (up ++ [r]) := by
    rw [← hdr]; intro x hx; exact hs x (by simpa using hx)
  rw [hdr] at hfound
  obtain ⟨h1, h2⟩ := descend_ok hfound
  simp only [List.map_append, List.map_cons, List.map_nil, joinAll_append] at h1
  obtain ⟨_, _, rfl⟩ := delete_erases hb hs' h1 hdel
  rw [look_erase (by simp), if_neg]
  intro e
  apply hq
  rw [e, hdn]
  simp [placeOf, ldifName, dirName]

/-! What the code does. -/

def env : Env := C33.env
def a : Dn.Rdn := [⟨"dc".toList, "a".toList⟩]
def b : Dn.Rdn := [⟨"cn".toList, "b".toList⟩]
/-- An empty tree. -/
def empty : Fs := [(["t".toList], .dir)]
def root : Handle := ⟨"/t".toList, [], []⟩
def av : Verif.Attrs := [(.bytes (ascii "dc"), [.bytes (ascii "a")])]
def bv : Verif.Attrs := [(.bytes (ascii "cn"), [.bytes (ascii "b")])]

/-- Add `dc=a`, add `cn=b,dc=a`, delete `cn=b,dc=a`, delete `dc=a`. -/
def history : Except Err Fs := do
  let (fs, ha) ← addChild env empty root a av "u".toList
  let (fs, hb) ← addChild env fs ha b bv "v".toList
  let fs ← delete env fs hb
  delete env fs ha

/-- The full property is false: everything has been deleted, but the first entry is still found, without attributes. -/
theorem still_found : (do let fs ← history; lookup env fs root [a]) = .ok ⟨"/t/dc=a.dir".toList, [a], []⟩ := by decide +kernel

/-- It is listed, it cannot be added again, and deleting it again raises an exception: the name is lost for good. -/
theorem name_lost : (do let fs ← history; children env fs root) = .ok [⟨"/t/dc=a.dir".toList, [a], []⟩] ∧
    (do let fs ← history; addChild env fs root a av "w".toList) = .error (.py .alreadyExists) ∧
    (do let fs ← history; deleteChild env fs root a) = .error .noEnt := by decide +kernel

/-- Without the entry below, it is gone. -/
example : (do
    let (fs, ha) ← addChild env empty root a av "u".toList
    let h ← lookup env fs root [a]
    let fs' ← delete env fs h
    return (ha == h, isDir fs h.path, lookup env fs' root [a])) = .ok (true, false, .error (.py .noSuchObject)) := by decide +kernel

example : DirAt empty "/t".toList ["t".toList] ∧ PrintableDn [a] ∧ NoSlash [a] :=
  ⟨⟨by decide +kernel, by decide +kernel⟩, ⟨by decide +kernel, by decide +kernel⟩, by unfold NoSlash; decide +kernel⟩

end Verif.C35
