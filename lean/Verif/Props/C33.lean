import Verif.Lemmas.LdifTreeAny
import Verif.Props.C29
/-
C33  Storing an entry on disk is atomic at every crash point.
-/
namespace Verif.C33
open Verif.LdifTree Verif.Spec
open Verif.Server (Env)

theorem pieces_flatten (b : Bytes) : ∀ n, b.length < n → (pieces n b).flatten = b := by
  intro n
  induction n generalizing b with
  | zero => intro h; omega
  | succ n ih =>
    intro h
    rw [pieces]
    split
    · rename_i h2; rw [h2]; rfl
    · rename_i h2
      rw [List.flatten_cons, ih]
      · exact List.take_append_drop _ _
      · have : 0 < b.length := List.length_pos_iff.mpr h2
        rw [List.length_drop]; omega

/-- The file of an entry reads as the entry. -/
theorem readEntry_wire (env : Env) (hU : Sane env.U) (e : Entry) (he : Writable e) {text : Bytes}
    (ht : Ldif.toWire env e = .ok text) (hl : ShortLines text) : ∃ e', readEntry env.U text = .ok e' ∧ Reads e e' := by
  obtain ⟨t, h1, h2⟩ := C29.entry_roundtrip env hU e he
  rw [ht] at h1
  cases h1
  obtain ⟨e', h3, h4⟩ := h2 hl _ (pieces_flatten text (text.length + 1) (by omega))
  refine ⟨e', ?_, h4⟩
  unfold readEntry Ldif.parseStored
  unfold Ldif.parse Ldif.connectionLost at h3
  split at h3
  · simp at h3
  · rename_i hr
    simp only [Prod.mk.injEq] at h3
    simp only [hr, h3.1]

/-- A file that holds anything but one entry, such as the text of several entries, is refused: a reader never takes a
part of it. -/
theorem many_refused (env : Env) (hU : Sane env.U) (es : List Entry) (he : ∀ e ∈ es, Writable e) (hn : es.length ≠ 1)
    {objects : List (PyStr × Verif.Attrs)} (ho : C29.written env es = .ok objects) (hl : ShortLines (Ldif.manyAsLDIF objects)) :
    readEntry env.U (Ldif.manyAsLDIF objects) = .error (if es = [] then .noEntries else .multipleEntries) := by
  obtain ⟨o, h1, h2⟩ := C29.file_roundtrip env hU es he
  rw [ho] at h1
  cases h1
  obtain ⟨es', h3, h4, _⟩ := h2 hl _ (pieces_flatten _ ((Ldif.manyAsLDIF objects).length + 1) (by omega))
  unfold readEntry Ldif.parseStored
  unfold Ldif.parse Ldif.connectionLost at h3
  split at h3
  · simp at h3
  · rename_i hr
    simp only [Prod.mk.injEq] at h3
    simp only [hr, h3.1]
    cases es with
    | nil =>
      have : es' = [] := List.length_eq_zero_iff.mp h4
      subst this; rfl
    | cons e es =>
      rw [if_neg (by simp)]
      match es', h4 with
      | [], h4 => simp at h4
      | [_], h4 => simp at h4; simp [← h4] at hn
      | _ :: _ :: _, _ => rfl

/-- Two entries in one file. -/
example : ∃ objects, C29.written ⟨asciiTables, fun b => b, true, true⟩ [⟨[[⟨"cn".toList, "a".toList⟩]], [(.text "cn".toList, [.text "a".toList])]⟩,
    ⟨[[⟨"cn".toList, "b".toList⟩]], [(.text "cn".toList, [.text "b".toList])]⟩] = .ok objects ∧ ShortLines (Ldif.manyAsLDIF objects) := by
  have h : (C29.written ⟨asciiTables, fun b => b, true, true⟩ [⟨[[⟨"cn".toList, "a".toList⟩]], [(.text "cn".toList, [.text "a".toList])]⟩,
      ⟨[[⟨"cn".toList, "b".toList⟩]], [(.text "cn".toList, [.text "b".toList])]⟩]).toOption.any
        (fun o => (Ldif.manyAsLDIF o).length ≤ 16384) = true := by decide +kernel
  cases e : C29.written ⟨asciiTables, fun b => b, true, true⟩ [⟨[[⟨"cn".toList, "a".toList⟩]], [(.text "cn".toList, [.text "a".toList])]⟩,
    ⟨[[⟨"cn".toList, "b".toList⟩]], [(.text "cn".toList, [.text "b".toList])]⟩] with
  | error x => rw [e] at h; simp [Except.toOption] at h
  | ok o => rw [e] at h; exact ⟨o, rfl, C29.short (by simpa [Except.toOption] using h)⟩

theorem rdn_of_text {U : Unicode} {r s : Dn.Rdn} (hr : ∀ a ∈ r, '=' ∉ a.attributeType) (hs : ∀ a ∈ s, '=' ∉ a.attributeType)
    (h : r.text = s.text) : r = s := by
  have h1 := Dn.Rdn.parse_text U r hr
  rw [h, Dn.Rdn.parse_text U s hs] at h1
  cases h1; rfl

theorem dn_of_texts {U : Unicode} {d d' : Dn.Dn} (hd : ∀ r ∈ d, ∀ a ∈ r, '=' ∉ a.attributeType)
    (hd' : ∀ r ∈ d', ∀ a ∈ r, '=' ∉ a.attributeType) (h : d.map Dn.Rdn.text = d'.map Dn.Rdn.text) : d = d' := by
  induction d generalizing d' with
  | nil => cases d' with
    | nil => rfl
    | cons _ _ => cases h
  | cons r d ih =>
    cases d' with
    | nil => cases h
    | cons s d' =>
      simp only [List.map_cons, List.cons.injEq] at h
      rw [rdn_of_text (U := U) (hd r (by simp)) (hd' s (by simp)) h.1,
        ih (fun r hr => hd r (by simp [hr])) (fun r hr => hd' r (by simp [hr])) h.2]

/-- Different DNs have different places. -/
theorem place_injective {base : Path} {r s : Dn.Rdn} {up up' : Dn.Dn} (h1 : PrintableDn (r :: up)) (h2 : PrintableDn (s :: up'))
    (h : dirOf base up ++ [ldifName r] = dirOf base up' ++ [ldifName s]) : r = s ∧ up = up' := by
  obtain ⟨h3, h4⟩ := List.append_inj' h rfl
  have h5 : r.text = s.text := by
    simp only [List.cons.injEq, and_true, ldifName] at h4
    exact List.append_cancel_right h4
  have h6 : up.reverse.map dirName = up'.reverse.map dirName := List.append_cancel_left h3
  have h7 : up.map dirName = up'.map dirName := by
    have := congrArg List.reverse h6
    simpa only [List.map_reverse, List.reverse_reverse] using this
  refine ⟨rdn_of_text (U := asciiTables) (h1.types r (by simp)) (h2.types s (by simp)) h5,
    dn_of_texts (U := asciiTables) (fun x hx => h1.types x (by simp [hx])) (fun x hx => h2.types x (by simp [hx])) ?_⟩
  have h8 := congrArg (List.map fun n : Str => n.take (n.length - 4)) h7
  simpa [List.map_map, Function.comp_def, dirName] using h8

theorem fresh_dir {fs : Fs} {base : Path} {up : Dn.Dn} (h : look fs (dirOf base up) = none →
    up ≠ [] ∧ ∃ p up', up = p :: up' ∧ look fs (dirOf base up' ++ [ldifName p]) ≠ none) :
    look fs (dirOf base up) = none → ∃ q a, dirOf base up = q ++ [a ++ ".dir".toList] := by
  intro hn
  obtain ⟨_, p, up', rfl, _⟩ := h hn
  exact ⟨dirOf base up', p.text, by simp [dirOf, dirName]⟩

/-- For every DN, whatever it contains: wherever storing an entry stops, each file that is not a temporary one is as it was
(or is a directory that was not there), or it is the file of this entry and has the complete new content.  No directory is
lost. -/
theorem each_file (env : Env) (fs : Fs) (path uuid : Str) (e : Entry) (steps : List Step)
    (hput : putSteps env fs path uuid e = .ok steps) (fs' : Fs) (hstop : Stopped fs steps fs') (q : Path)
    (hq : ∀ d y, q ≠ d ++ [y ++ ".tmp".toList]) :
    look fs' q = look fs q ∨ (look fs q = none ∧ look fs' q = some .dir) ∨
      ∃ text, Ldif.toWire env e = .ok text ∧ look fs' q = some (.file text) ∧ resolve fs' (entryPath path e.dn) = .ok q :=
  (stopped_put_any hput hstop).2 q fun ⟨d, y, h⟩ => hq d y h

/-- For DNs without slashes (with them two DNs may have the same file, see C34): wherever storing an entry stops, a reader finds
under each DN what was there before, or, under the DN of the entry, the
file that was to be written. -/
theorem old_or_new_partial (env : Env) (fs : Fs) (hw : WellFormed fs) (path : Str) (base : Path) (hb : DirAt fs path base)
    (uuid : Str) (hu : '/' ∉ uuid) (e : Entry) (he : PrintableDn e.dn) (hs : NoSlash e.dn) (steps : List Step)
    (hput : putSteps env fs path uuid e = .ok steps) (fs' : Fs) (hstop : Stopped fs steps fs')
    (dn : Dn.Dn) (hd : PrintableDn dn) (hds : NoSlash dn) :
    get env fs' path dn = get env fs path dn ∨
      dn = e.dn ∧ ∃ text, Ldif.toWire env e = .ok text ∧ get env fs' path dn = readEntry env.U text := by
  cases hdn : e.dn with
  | nil => rw [putSteps, hdn] at hput; cases hput
  | cons r up =>
    obtain ⟨h1, h2⟩ := stopped_put hb hu hdn hs hput hstop
    have hb' := hb.keeps h1.keeps
    cases dn with
    | nil => left; rfl
    | cons s up' =>
      have hg : ∀ fs, DirAt fs path base → get env fs path (s :: up') =
          (fetch fs base (up'.reverse.map dirName) (ldifName s)).bind fun b => readEntry env.U b := by
        intro fs hb
        unfold LdifTree.get
        rw [if_neg (by simp), openRead_entry hb hds]
        rfl
      rw [hg fs hb, hg fs' hb']
      rcases fetch_between hw (fresh_dir h2) h1 base (up'.reverse.map dirName)
        (by intro d hm; obtain ⟨x, _, rfl⟩ := List.mem_map.mp hm; exact ⟨x.text, rfl⟩) s.text with h3 | ⟨h3, b, h4, h5⟩
      · left
        rw [show ldifName s = s.text ++ ".ldif".toList from rfl, h3]
      · right
        obtain ⟨rfl, rfl⟩ := place_injective hd (hdn ▸ he) (base := base) h3
        refine ⟨rfl, b, h4, ?_⟩
        rw [show ldifName s = s.text ++ ".ldif".toList from rfl, h5]
        rfl

/-- For DNs without slashes: wherever storing an entry stops, a reader finds under each DN the complete old entry (or the same exception, such as no
file), or, under the DN of the entry, the complete new one. -/
theorem atomic_partial (env : Env) (hU : Sane env.U) (fs : Fs) (hw : WellFormed fs) (path : Str) (base : Path)
    (hb : DirAt fs path base) (uuid : Str) (hu : '/' ∉ uuid) (e : Entry) (he : Writable e) (hs : NoSlash e.dn)
    (hshort : ∀ text, Ldif.toWire env e = .ok text → ShortLines text) (steps : List Step)
    (hput : putSteps env fs path uuid e = .ok steps) (fs' : Fs) (hstop : Stopped fs steps fs')
    (dn : Dn.Dn) (hd : PrintableDn dn) (hds : NoSlash dn) :
    get env fs' path dn = get env fs path dn ∨ dn = e.dn ∧ ∃ e', get env fs' path dn = .ok e' ∧ Reads e e' := by
  rcases old_or_new_partial env fs hw path base hb uuid hu e ⟨he.types, he.rdns⟩ hs steps hput fs' hstop dn hd hds with h | ⟨h1, t, h2, h3⟩
  · exact .inl h
  · obtain ⟨e', h4, h5⟩ := readEntry_wire env hU e he h2 (hshort t h2)
    exact .inr ⟨h1, e', h3.trans h4, h5⟩

/-- An entry that cannot be written (its values are of both Python types) leaves everything readable as before. -/
theorem unwritable_keeps_partial (env : Env) (fs : Fs) (hw : WellFormed fs) (path : Str) (base : Path) (hb : DirAt fs path base)
    (uuid : Str) (hu : '/' ∉ uuid) (e : Entry) (he : PrintableDn e.dn) (hs : NoSlash e.dn) (x : PyErr)
    (hx : Ldif.toWire env e = .error x) (steps : List Step)
    (hput : putSteps env fs path uuid e = .ok steps) (fs' : Fs) (hstop : Stopped fs steps fs')
    (dn : Dn.Dn) (hd : PrintableDn dn) (hds : NoSlash dn) : get env fs' path dn = get env fs path dn := by
  rcases old_or_new_partial env fs hw path base hb uuid hu e he hs steps hput fs' hstop dn hd hds with h | ⟨h1, t, h2, h3⟩
  · exact h
  · rw [hx] at h2; cases h2

/-- The listings used for the children: wherever storing stops, each directory lists the same children, but for the new one,
which is listed only where it belongs and only if its file is there.  Temporary files are never listed. -/
theorem listing_partial (env : Env) (fs : Fs) (hw : WellFormed fs) (path : Str) (base : Path) (hb : DirAt fs path base)
    (uuid : Str) (hu : '/' ∉ uuid) (e : Entry) (he : PrintableDn e.dn) (hs : NoSlash e.dn) (steps : List Step)
    (hput : putSteps env fs path uuid e = .ok steps) (fs' : Fs) (hstop : Stopped fs steps fs')
    (dn : Dn.Dn) (hds : NoSlash dn) (b : Str) :
    b ∈ childNames fs' (joinAll path (dn.reverse.map dirName)) ↔
      b ∈ childNames fs (joinAll path (dn.reverse.map dirName)) ∨
        dirOf base dn = dirOf base e.dn.up ∧ e.dn.head?.map Dn.Rdn.text = some b ∧ look fs' (placeOf base e.dn) ≠ none := by
  cases hdn : e.dn with
  | nil => rw [putSteps, hdn] at hput; cases hput
  | cons r up =>
    obtain ⟨h1, h2⟩ := stopped_put hb hu hdn hs hput hstop
    rw [mem_childNames hw hb hds, mem_childNames (wellFormed_stopped hw hstop) (hb.keeps h1.keeps) hds]
    rw [shown_between (he.rdns r (by simp [hdn])) (fun p hp => he.rdns p (by simp [hdn, hp])) h1 h2]
    simp only [Dn.Dn.up, List.drop_succ_cons, List.drop_zero, List.head?_cons, Option.map_some, Option.some.injEq, placeOf,
      eq_comm (a := b)]
    exact Iff.rfl

/-! An example: storing `cn=b,dc=a` below `/t`, where there is `dc=a` and no directory for it yet. -/

def env : Env := ⟨asciiTables, fun b => b, true, true⟩
def a : Dn.Rdn := [⟨"dc".toList, "a".toList⟩]
def b : Dn.Rdn := [⟨"cn".toList, "b".toList⟩]
def before : Fs := [(["t".toList], .dir), (["t".toList, "dc=a.ldif".toList], .file (Server.ascii "dn: dc=a\ndc: a\n\n"))]
def new : Entry := ⟨[b, a], [(.bytes (Server.ascii "cn"), [.bytes [98]]), (.bytes (Server.ascii "x"), [.bytes [10, 200]])]⟩
def newText : Bytes := Server.ascii "dn: cn=b,dc=a\ncn: b\nx:: Csg=\n\n"

example : WellFormed before := wellFormed_of_all (by decide +kernel)
example : DirAt before "/t".toList ["t".toList] := ⟨by decide +kernel, by decide +kernel⟩
example : NoSlash new.dn ∧ PrintableDn new.dn :=
  ⟨by unfold NoSlash; decide +kernel, ⟨by decide +kernel, by decide +kernel⟩⟩
example : Writable new := by
  refine ⟨⟨?_, ?_⟩, ?_, ?_, by decide +kernel, by decide +kernel⟩
  · intro k vs h
    simp only [new, List.mem_cons, List.not_mem_nil, or_false, Prod.mk.injEq] at h
    rcases h with ⟨rfl, _⟩ | ⟨rfl, _⟩ <;> decide +kernel
  · simp [new, SameName]; decide +kernel
  · intro k vs h
    simp only [new, List.mem_cons, List.not_mem_nil, or_false, Prod.mk.injEq] at h
    rcases h with ⟨rfl, _⟩ | ⟨rfl, _⟩ <;> exact ⟨by decide +kernel, by decide +kernel, by decide +kernel, by decide +kernel⟩
  · intro k vs h
    simp only [new, List.mem_cons, List.not_mem_nil, or_false, Prod.mk.injEq] at h
    rcases h with ⟨_, rfl⟩ | ⟨_, rfl⟩ <;> simp [OneKind, PyStr.isText]
example : Ldif.toWire env new = .ok newText ∧ newText.length < 16384 := by decide +kernel

/-- Storing it takes four system calls. -/
theorem example_steps : putSteps env before "/t".toList "u".toList new =
    .ok [.mkdir "/t/dc=a.dir".toList true, .create "/t/dc=a.dir/cn=b.u.tmp".toList,
      .write "/t/dc=a.dir/cn=b.u.tmp".toList (.ok newText),
      .rename "/t/dc=a.dir/cn=b.u.tmp".toList "/t/dc=a.dir/cn=b.ldif".toList] := by decide +kernel

/-- Three octets of the temporary file have been written when the process dies. -/
def torn : Fs :=
  [(["t".toList, "dc=a.dir".toList, "cn=b.u.tmp".toList], .file (newText.take 3)), (["t".toList, "dc=a.dir".toList], .dir)] ++ before

example : ∃ steps, putSteps env before "/t".toList "u".toList new = .ok steps ∧ Stopped before steps torn :=
  ⟨_, example_steps,
    .later (fs' := (["t".toList, "dc=a.dir".toList], .dir) :: before) (by decide +kernel)
      (.later (fs' := [(["t".toList, "dc=a.dir".toList, "cn=b.u.tmp".toList], .file []), (["t".toList, "dc=a.dir".toList], .dir)] ++ before)
        (by decide +kernel) (.torn 3 _ (by decide +kernel)))⟩

/-! When nothing stops it. -/

theorem run_putEntry {fs : Fs} {dir n uuid : Str} {D : Path} {b : Bytes} (hd : DirAt fs dir D)
    (hn : '/' ∉ n) (hu : '/' ∉ uuid) (h1 : look fs (D ++ [tmpOf n uuid]) ≠ some .dir)
    (h2 : look fs (D ++ [n ++ ".ldif".toList]) ≠ some .dir) :
    ∃ fs', run fs (putEntry (join dir n) uuid (.ok b)) = .ok fs' ∧ look fs' (D ++ [n ++ ".ldif".toList]) = some (.file b) := by
  have hl : IsName (n ++ ".ldif".toList) := isName_suffix hn (by decide) (by decide)
  have ht := isName_tmp hn hu
  have hne : D ++ [n ++ ".ldif".toList] ≠ D ++ [tmpOf n uuid] := ne_ldif_tmp _ _ _ _ _
  unfold putEntry
  rw [tmpName_join hn hu, join_append hn (by decide)]
  generalize n ++ ".ldif".toList = L at *
  generalize tmpOf n uuid = T at *
  have hT : D ++ [T] ≠ [] := by simp
  have hL : D ++ [L] ≠ [] := by simp
  have a1 : apply fs (.create (join dir T)) = .ok (set fs (D ++ [T]) (.file [])) := by
    simp only [apply, resolve_join hd ht, bind, Except.bind]
  have hk1 := keeps_set (n := .file []) h1
  have look1 : ∀ q, look (set fs (D ++ [T]) (.file [])) q = if q = D ++ [T] then some (.file []) else look fs q := look_set hT
  have a2 : apply (set fs (D ++ [T]) (.file [])) (.write (join dir T) (.ok b)) =
      .ok (set (set fs (D ++ [T]) (.file [])) (D ++ [T]) (.file b)) := by
    simp only [apply, resolve_join (hd.keeps hk1) ht, bind, Except.bind, look1, if_true, List.nil_append]
  have hk2 : Keeps fs (set (set fs (D ++ [T]) (.file [])) (D ++ [T]) (.file b)) :=
    hk1.trans (keeps_set (by rw [look1, if_pos rfl]; simp))
  have look2 : ∀ q, look (set (set fs (D ++ [T]) (.file [])) (D ++ [T]) (.file b)) q =
      if q = D ++ [T] then some (.file b) else look fs q := by
    intro q
    rw [look_set hT, look1]
    split <;> rfl
  refine ⟨set (erase (set (set fs (D ++ [T]) (.file [])) (D ++ [T]) (.file b)) (D ++ [T])) (D ++ [L]) (.file b), ?_, ?_⟩
  · simp only [run, a1, a2, bind, Except.bind]
    simp only [apply, resolve_join (hd.keeps hk2) ht, resolve_join (hd.keeps hk2) hl, bind, Except.bind, look2, if_true,
      if_neg hne]
  · rw [look_set hL, if_pos rfl]

/-- An entry can be stored if its superior has been (or it has none), and no directory has the name of its file; it is then
found, and every other DN reads as before. -/
theorem stored (env : Env) (hU : Sane env.U) (fs : Fs) (hw : WellFormed fs) (path : Str) (base : Path)
    (hb : DirAt fs path base) (uuid : Str) (hu : '/' ∉ uuid) (e : Entry) (he : Writable e) (hs : NoSlash e.dn)
    (hne : e.dn ≠ []) (hshort : ∀ text, Ldif.toWire env e = .ok text → ShortLines text)
    (hdir : ∀ b, look fs (dirOf base e.dn.up) ≠ some (.file b))
    (hsup : e.dn.up ≠ [] → ∃ b, look fs (placeOf base e.dn.up) = some (.file b))
    (hfile : ∀ n, look fs (dirOf base e.dn.up ++ [n ++ ".ldif".toList]) ≠ some .dir)
    (htmp : ∀ n, look fs (dirOf base e.dn.up ++ [n ++ ".tmp".toList]) ≠ some .dir) :
    ∃ fs', put env fs path uuid e = .ok fs' ∧ (∃ e', get env fs' path e.dn = .ok e' ∧ Reads e e') ∧
      ∀ dn, PrintableDn dn → NoSlash dn → dn ≠ e.dn → get env fs' path dn = get env fs path dn := by
  obtain ⟨text, ht, _⟩ := C29.entry_roundtrip env hU e he
  have key : ∃ steps fs', putSteps env fs path uuid e = .ok steps ∧ run fs steps = .ok fs' ∧
      look fs' (placeOf base e.dn) = some (.file text) := by
    cases hdn : e.dn with
    | nil => exact absurd hdn hne
    | cons r up =>
      rw [hdn] at hdir hsup hfile htmp
      simp only [Dn.Dn.up, List.drop_succ_cons, List.drop_zero] at hdir hsup hfile htmp
      have hr : '/' ∉ r.text := slash_of hs (by simp [hdn])
      have hupS : NoSlash up := fun x hx => hs x (by rw [hdn]; simp [hx])
      unfold putSteps
      simp only [hdn, ht, bind, Except.bind, pure, Except.pure]
      cases up with
      | nil =>
        obtain ⟨fs', h1, h2⟩ := run_putEntry (b := text) hb hr hu (by simpa [dirOf, tmpOf] using htmp (r.text ++ ['.'] ++ uuid)) (by simpa [dirOf] using hfile r.text)
        exact ⟨_, fs', rfl, by simpa [parentDir] using h1, by simpa [placeOf] using h2⟩
      | cons p up =>
        obtain ⟨c, hc⟩ := hsup (by simp)
        have hp : '/' ∉ p.text := slash_of hs (by rw [hdn]; simp)
        have hup : NoSlash up := fun x hx => hs x (by rw [hdn]; simp [hx])
        have hD : dirOf base (p :: up) = dirOf base up ++ [dirName p] := by simp [dirOf]
        have hc' : look fs (dirOf base up ++ [ldifName p]) = some (.file c) := hc
        have hwk : walk fs base (up.reverse.map dirName) = .ok (dirOf base up) :=
          walk_of_look hw (hw _ (ldifName p) (by rw [show base ++ up.reverse.map dirName = dirOf base up from rfl, hc']; simp))
        have hgd := resolve_joinAll hb (names_of hup) hwk
        have hrs := resolve_join hgd (isName_dir hp)
        have hrl := resolve_join hgd (isName_ldif hp)
        cases hl : look fs (dirOf base up ++ [dirName p]) with
        | some x =>
          have hx : x = .dir := by
            cases x with
            | dir => rfl
            | file b => exact absurd (by rw [hD]; exact hl) (hdir b)
          subst hx
          obtain ⟨fs', h1, h2⟩ := run_putEntry (b := text) ⟨hrs, hl⟩ hr hu (by rw [← hD]; exact htmp _) (by rw [← hD]; exact hfile _)
          refine ⟨_, fs', by simp only [parentDir, pathExists, stat, hrs, hl, Option.isSome_some, if_true]; rfl, by simpa using h1, ?_⟩
          rw [← hD] at h2
          exact h2
        | none =>
          have hk : Keeps fs (set fs (dirOf base up ++ [dirName p]) .dir) := keeps_set (by rw [hl]; simp)
          have look1 : ∀ q, look (set fs (dirOf base up ++ [dirName p]) .dir) q =
            if q = dirOf base up ++ [dirName p] then some .dir else look fs q := look_set (by simp)
          obtain ⟨fs', h1, h2⟩ := run_putEntry (fs := set fs (dirOf base up ++ [dirName p]) .dir) (b := text)
            (dir := join (joinAll path (up.reverse.map dirName)) (dirName p)) (D := dirOf base up ++ [dirName p]) (n := r.text) (uuid := uuid)
            ⟨resolve_join (hgd.keeps hk) (isName_dir hp), by rw [look1, if_pos rfl]⟩ hr hu
            (by rw [look1, if_neg (append_ne_self _ _).symm, ← hD]; exact htmp _)
            (by rw [look1, if_neg (append_ne_self _ _).symm, ← hD]; exact hfile _)
          refine ⟨_, fs', by simp only [parentDir, pathExists, stat, hrs, hl, hrl, hc', Option.isSome_some, Option.isSome_none, if_true, Bool.false_eq_true, if_false]; rfl, ?_, ?_⟩
          · rw [List.singleton_append, run]
            simp only [apply, hrs, hl, bind, Except.bind]
            exact h1
          · rw [← hD] at h2
            exact h2
  obtain ⟨steps, fs', h1, h2, h3⟩ := key
  have hget := fun dn => atomic_partial env hU fs hw path base hb uuid hu e he hs hshort steps h1 fs' (stopped_run h2) dn
  refine ⟨fs', by simp [put, h1, h2, bind, Except.bind], ?_, ?_⟩
  · obtain ⟨e', h4, h5⟩ := readEntry_wire env hU e he ht (hshort text ht)
    refine ⟨e', ?_, h5⟩
    cases hdn : e.dn with
    | nil => exact absurd hdn hne
    | cons r up =>
      obtain ⟨hbt, _⟩ := stopped_put hb hu hdn hs h1 (stopped_run h2)
      have hw' := wellFormed_stopped hw (stopped_run h2)
      rw [hdn] at h3
      have h3' : look fs' (dirOf base up ++ [ldifName r]) = some (.file text) := h3
      unfold LdifTree.get
      rw [if_neg (by simp), openRead_entry (hb.keeps hbt.keeps) (hdn ▸ hs), fetch, walk_of_look hw' (hw' _ _ (by rw [show base ++ up.reverse.map dirName = dirOf base up from rfl, h3']; simp))]
      simp only [Except.bind, contentAt, bind]
      rw [show base ++ up.reverse.map dirName = dirOf base up from rfl, h3']
      exact h4
  · intro dn hd hds hn
    rcases hget dn hd hds with h | ⟨h, _⟩
    · exact h
    · exact absurd h hn

end Verif.C33
