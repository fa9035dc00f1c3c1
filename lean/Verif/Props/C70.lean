import Verif.Lemmas.LdifTreeAdd
import Verif.Props.C35
/-
C70  Entries added on disk are found again, and nothing else changes.
-/
namespace Verif.C70
open Verif.LdifTree Verif.Spec
open Verif.Server (Env ascii)
open Verif.Utf8 (AsciiBytes)

theorem ascii_lower {a b : Bytes} (h : PyStr.lowerBytes a = PyStr.lowerBytes b) (ha : AsciiBytes a) : AsciiBytes b := by
  have h1 := PyStr.lowerBytes_ascii ha
  rw [h] at h1
  intro x hx
  have := h1 (PyStr.lowerByte x) (List.mem_map_of_mem hx)
  rw [PyStr.toNat_lowerByte] at this
  split at this <;> omega

/-- The names of the items of an entry whose names are octets are octets. -/
theorem items_octets {env : Env} {e : Entry} (h : ∀ p ∈ e.attrs, p.1.isText = false) {l : Verif.Attrs}
    (hl : Server.items env e = .ok l) : Ldif.ByteNames l := by
  have hoct : ∀ k : PyStr, k.isText = false → ∃ b, k = .bytes b := by
    intro k hk
    cases k with
    | text s => cases hk
    | bytes b => exact ⟨b, rfl⟩
  have hother : ∀ (as rs : Verif.Attrs), (∀ p ∈ as, p.1.isText = false) → Server.otherItems env.U as = .ok rs →
      ∀ p ∈ rs, p.1.isText = false := by
    intro as
    induction as with
    | nil => intro rs _ h; cases h; simp
    | cons p as ih =>
      intro rs ha hr
      rw [Server.otherItems] at hr
      split at hr
      · exact ih rs (fun q hq => ha q (List.mem_cons_of_mem _ hq)) hr
      · simp only [bind, Except.bind, pure, Except.pure] at hr
        split at hr
        · cases hr
        · split at hr
          · cases hr
          · rename_i r' hr'
            cases hr
            intro q hq
            rcases List.mem_cons.mp hq with rfl | hq
            · exact ha p List.mem_cons_self
            · exact ih r' (fun q hq => ha q (List.mem_cons_of_mem _ hq)) hr' q hq
  simp only [Server.items, bind, Except.bind, pure, Except.pure] at hl
  split at hl
  · cases hl
  rename_i rs hr
  cases hl
  intro p hp
  rcases List.mem_append.mp hp with hp | hp
  · obtain ⟨k, _, hf⟩ := List.mem_filterMap.mp hp
    split at hf
    · rename_i v vs hv
      cases hf
      obtain ⟨k', hk', hlow⟩ := Match.find_mem hv
      have := h _ hk'
      cases k with
      | bytes b => exact ⟨b, rfl⟩
      | text s =>
        cases k' with
        | text s' => cases this
        | bytes b => cases hlow
    · cases hf
  · exact hoct _ (hother _ rs (fun q hq => h q ((Server.sortItems_perm _).mem_iff.mp hq)) hr p hp)

/-- What `_load` makes of an entry that was read has the same values. -/
theorem load_values {env : Env} (hU : Sane env.U) {e e' : Entry} (he : Writable e) (h : Reads e e') :
    ∃ l, Server.items env e' = .ok l ∧ SameValues e ⟨e.dn, Tree.buildAttrs env.U l⟩ := by
  have hn : WellNamed e' := by
    refine ⟨fun k vs hk => ?_, h.attributes⟩
    obtain ⟨hne, _, _⟩ := h.once _ hk
    obtain ⟨v, vs, rfl⟩ := List.exists_cons_of_ne_nil hne
    obtain ⟨ws, w, ⟨k', hk', hs⟩, _⟩ := (h.values k v.toBytes).mpr ⟨_, v, ⟨k, hk, rfl⟩, List.mem_cons_self, rfl⟩
    exact ascii_lower hs (he.named.ascii _ _ hk')
  have hk : ∀ k vs, (k, vs) ∈ e'.attrs → OneKind vs := fun k vs hm => .inr (h.once _ hm).2.2
  obtain ⟨l, h1, h2, h3, _⟩ := Server.items_shown hU hn hk
  refine ⟨l, h1, fun a b => ?_⟩
  obtain ⟨_, _, _, hb⟩ := Ldif.buildAttrs_facts (U := env.U) (items_octets h.octets h1)
  rw [h.values, Ldif.hasValue_iff (d := Tree.buildAttrs env.U l)]
  constructor
  · rintro ⟨vs, v, ha, hv, e⟩
    obtain ⟨k, ws, hm, hs, hp⟩ := h3 a vs ha (List.ne_nil_of_mem hv)
    exact ⟨v, (hb a v).mpr ⟨(k, ws), hm, hs.symm, hp.mem_iff.mpr hv⟩, e⟩
  · rintro ⟨v, hv, e⟩
    obtain ⟨⟨k, ws⟩, hm, hs, hv⟩ := (hb a v).mp hv
    obtain ⟨vs, ⟨k', hk', hs'⟩, hp⟩ := h2 k ws hm
    exact ⟨vs, v, ⟨k', hk', hs'.trans hs⟩, hp.mem_iff.mp hv, e⟩

theorem dir_injective {base : Path} {up up' : Dn.Dn} (h1 : PrintableDn up) (h2 : PrintableDn up')
    (h : dirOf base up = dirOf base up') : up = up' := by
  have h6 : up.reverse.map dirName = up'.reverse.map dirName := List.append_cancel_left h
  have h7 : up.map dirName = up'.map dirName := by
    have := congrArg List.reverse h6
    simpa only [List.map_reverse, List.reverse_reverse] using this
  refine C33.dn_of_texts (U := asciiTables) h1.types h2.types ?_
  have h8 := congrArg (List.map fun n : Str => n.take (n.length - 4)) h7
  simpa [List.map_map, Function.comp_def, dirName] using h8

/-- What is found on the way of another DN. -/
theorem between_found {fs fs' : Fs} {base : Path} {r : Dn.Rdn} {sup : Dn.Dn} {uuid : Str} {content : Py Bytes}
    (h : Between fs fs' (dirOf base sup) r.text uuid content) (hD : look fs' (dirOf base sup) = some .dir)
    (hp : PrintableDn (r :: sup)) {dn : Dn.Dn} {a : List Dn.Rdn} {x : Dn.Rdn} (hpre : a ++ [x] <+: dn.reverse)
    (hd : PrintableDn dn) (hn : ¬ (r :: sup) <:+ dn) (hf : a ++ [x] = sup.reverse → found fs base a x = true) :
    found fs' base a x = found fs base a x ∧
      look fs' (base ++ a.map dirName ++ [ldifName x]) = look fs (base ++ a.map dirName ++ [ldifName x]) := by
  have hax : PrintableDn (x :: a.reverse) := by
    have hm : ∀ y ∈ x :: a.reverse, y ∈ dn := by
      intro y hy
      have := hpre.subset (a := y) (by simpa [or_comm] using hy)
      simpa using this
    exact ⟨fun y hy => hd.types y (hm y hy), fun y hy => hd.rdns y (hm y hy)⟩
  have hA : base ++ a.map dirName = dirOf base a.reverse := by simp [dirOf]
  have hQ : base ++ a.map dirName ++ [dirName x] = dirOf base (x :: a.reverse) := by simp [dirOf]
  have hl : look fs' (base ++ a.map dirName ++ [ldifName x]) = look fs (base ++ a.map dirName ++ [ldifName x]) := by
    refine h.others _ (ne_ldif_tmp _ _ _ _ _) (fun e => ?_) (fun e => ?_)
    · rw [hA] at e
      obtain ⟨rfl, h2⟩ := C33.place_injective hax hp (base := base) e
      apply hn
      rw [← h2]
      have := List.reverse_suffix.mpr hpre
      simpa using this
    · cases sup with
      | nil =>
        have := congrArg List.length e
        simp [dirOf] at this
      | cons p up =>
        rw [show dirOf base (p :: up) = dirOf base up ++ [dirName p] by simp [dirOf]] at e
        exact ne_dir_ldif _ _ _ _ e.symm
  refine ⟨?_, hl⟩
  by_cases hq : base ++ a.map dirName ++ [dirName x] = dirOf base sup
  · have h1 : a ++ [x] = sup.reverse := by
      have := dir_injective hax ⟨fun y hy => hp.types y (List.mem_cons_of_mem _ hy), fun y hy => hp.rdns y (List.mem_cons_of_mem _ hy)⟩
        (hQ.symm.trans hq)
      rw [← this]; simp
    rw [hf h1]
    unfold found
    rw [hq, hD]; rfl
  · have h1 : look fs' (base ++ a.map dirName ++ [dirName x]) = look fs (base ++ a.map dirName ++ [dirName x]) :=
      h.others _ (ne_dir_tmp _ _ _ _ _) (ne_dir_ldif _ _ _ _) hq
    unfold found
    rw [h1, hl]

/-- The lookup of the new DN gives what `_addChild` returned. -/
theorem added_lookup (env : Env) (fs : Fs) (hw : WellFormed fs) (path : Str) (base : Path)
    (hb : DirAt fs path base) (top : Verif.Attrs) (sup : Dn.Dn) (h : Handle)
    (hlook : lookup env fs ⟨path, [], top⟩ sup = .ok h) (r : Dn.Rdn) (attrs : Verif.Attrs) (uuid : Str) (hu : '/' ∉ uuid)
    (hp : PrintableDn (r :: sup)) (hs : NoSlash (r :: sup)) (fs' : Fs) (c : Handle)
    (hadd : addChild env fs h r attrs uuid = .ok (fs', c)) : lookup env fs' ⟨path, [], top⟩ (r :: sup) = .ok c := by
  rw [lookup_root] at *
  obtain ⟨hw', hD, hbt, ⟨text, ht, hl⟩, hm, _⟩ := addChild_ok hw hb hs hu hlook hadd
  have hb' := hb.keeps hbt.keeps
  obtain ⟨hpath, hdn⟩ := descend_ok hlook
  have hsup : NoSlash sup.reverse := fun x hx => hs x (by simp [List.mem_reverse.mp hx])
  have hsup' : descend env fs' ⟨path, [], top⟩ sup.reverse = .ok h := by
    rw [← hlook]
    refine descend_congr hw hw' hb hb' _ hsup fun a x hpre => ?_
    refine between_found hbt hD hp hpre
      ⟨fun y hy => hp.types y (List.mem_cons_of_mem _ hy), fun y hy => hp.rdns y (List.mem_cons_of_mem _ hy)⟩ (fun hsuf => ?_)
      (fun _ => descend_found hw hb hsup hlook hpre)
    have := hsuf.length_le
    simp at this
    omega
  have hfile : isFile fs' (join h.path (ldifName r)) = true := by
    unfold isFile
    rw [hpath, stat_look hw' hb' (names_of' hsup) (isName_ldif (slash_of hs List.mem_cons_self)),
      show base ++ sup.reverse.map dirName ++ [ldifName r] = dirOf base sup ++ [ldifName r] from rfl, hl]
  have hdn' : h.dn = sup := by rw [hdn]; simp
  rw [List.reverse_cons, descend_append, hsup']
  simp only [Except.bind, descend, hfile, Bool.not_true, Bool.and_false, Bool.false_eq_true, if_false, hdn', hm]

/-- An entry added below one that was found is found: the lookup of its DN gives what `_addChild` returned, with the values
that were added. -/
theorem added_found_partial (env : Env) (hU : Sane env.U) (fs : Fs) (hw : WellFormed fs) (path : Str) (base : Path)
    (hb : DirAt fs path base) (top : Verif.Attrs) (sup : Dn.Dn) (h : Handle)
    (hlook : lookup env fs ⟨path, [], top⟩ sup = .ok h) (r : Dn.Rdn) (attrs : Verif.Attrs) (uuid : Str) (hu : '/' ∉ uuid)
    (he : Writable ⟨r :: sup, Tree.buildAttrs env.U attrs⟩) (hs : NoSlash (r :: sup))
    (hshort : ∀ text, Ldif.toWire env ⟨r :: sup, Tree.buildAttrs env.U attrs⟩ = .ok text → ShortLines text)
    (fs' : Fs) (c : Handle) (hadd : addChild env fs h r attrs uuid = .ok (fs', c)) :
    lookup env fs' ⟨path, [], top⟩ (r :: sup) = .ok c ∧ c.dn = r :: sup ∧
      SameValues ⟨r :: sup, Tree.buildAttrs env.U attrs⟩ ⟨c.dn, c.attrs⟩ := by
  have hp : PrintableDn (r :: sup) := ⟨he.types, he.rdns⟩
  refine ⟨added_lookup env fs hw path base hb top sup h hlook r attrs uuid hu hp hs fs' c hadd, ?_⟩
  rw [lookup_root] at hlook
  obtain ⟨hw', hD, hbt, ⟨text, ht, hl⟩, hm, _⟩ := addChild_ok hw hb hs hu hlook hadd
  have hb' := hb.keeps hbt.keeps
  obtain ⟨hpath, hdn⟩ := descend_ok hlook
  have hsup : NoSlash sup.reverse := fun x hx => hs x (by simp [List.mem_reverse.mp hx])
  obtain ⟨hcp, hcd⟩ := make_dn hm
  refine ⟨hcd, ?_⟩
  obtain ⟨e', h1, h2⟩ := C33.readEntry_wire env hU _ he ht (hshort text ht)
  obtain ⟨l, h3, h4⟩ := load_values hU he h2
  have hopen : openRead fs' (join h.path (ldifName r)) = .ok text := by
    rw [hpath, openRead_below hb' (names_of' hsup) (isName_ldif (slash_of hs List.mem_cons_self)), fetch,
      walk_of_look hw' (show look fs' (base ++ sup.reverse.map dirName) = some .dir from hD)]
    simp only [Except.bind, contentAt]
    rw [show base ++ sup.reverse.map dirName ++ [ldifName r] = dirOf base sup ++ [ldifName r] from rfl, hl]
  unfold make at hm
  rw [if_neg (C35.text_ne hp (by simp)), load_eq (slash_of hs List.mem_cons_self), hopen] at hm
  simp only [bind, Except.bind, h1, h3, pure, Except.pure, Except.ok.injEq] at hm
  subst hm
  exact h4

/-- Adding an entry changes no other lookup (other than of DNs below the new one). -/
theorem others_same_partial (env : Env) (fs : Fs) (hw : WellFormed fs) (path : Str) (base : Path)
    (hb : DirAt fs path base) (top : Verif.Attrs) (sup : Dn.Dn) (h : Handle)
    (hlook : lookup env fs ⟨path, [], top⟩ sup = .ok h) (r : Dn.Rdn) (attrs : Verif.Attrs) (uuid : Str) (hu : '/' ∉ uuid)
    (hp : PrintableDn (r :: sup)) (hs : NoSlash (r :: sup))
    (fs' : Fs) (c : Handle) (hadd : addChild env fs h r attrs uuid = .ok (fs', c))
    (dn : Dn.Dn) (hd : PrintableDn dn) (hds : NoSlash dn) (hn : ¬ (r :: sup) <:+ dn) :
    lookup env fs' ⟨path, [], top⟩ dn = lookup env fs ⟨path, [], top⟩ dn := by
  rw [lookup_root] at hlook
  rw [lookup_root, lookup_root]
  obtain ⟨hw', hD, hbt, _⟩ := addChild_ok hw hb hs hu hlook hadd
  refine descend_congr hw hw' hb (hb.keeps hbt.keeps) _ (fun x hx => hds x (by simpa using hx)) fun a x hpre => ?_
  refine between_found hbt hD hp hpre hd hn fun heq => ?_
  exact descend_found hw hb (fun x hx => hs x (by simp [List.mem_reverse.mp hx])) hlook ⟨[], by simpa using heq⟩

/-- An added entry that is deleted again is gone. -/
theorem added_deleted_partial (env : Env) (fs : Fs) (hw : WellFormed fs) (path : Str) (base : Path)
    (hb : DirAt fs path base) (top : Verif.Attrs) (sup : Dn.Dn) (h : Handle)
    (hlook : lookup env fs ⟨path, [], top⟩ sup = .ok h) (r : Dn.Rdn) (attrs : Verif.Attrs) (uuid : Str) (hu : '/' ∉ uuid)
    (hp : PrintableDn (r :: sup)) (hs : NoSlash (r :: sup))
    (fs' : Fs) (c : Handle) (hadd : addChild env fs h r attrs uuid = .ok (fs', c))
    (fs'' : Fs) (hdel : deleteChild env fs' h r = .ok fs'') :
    lookup env fs'' ⟨path, [], top⟩ (r :: sup) = .error (.py .noSuchObject) := by
  have hfound := added_lookup env fs hw path base hb top sup h hlook r attrs uuid hu hp hs fs' c hadd
  have hlook' := hlook
  rw [lookup_root] at hlook
  obtain ⟨hw', hD, hbt, ⟨text, ht, hl⟩, hm, cs, hcs, hany⟩ := addChild_ok hw hb hs hu hlook hadd
  have hb' := hb.keeps hbt.keeps
  obtain ⟨hpath, hdn⟩ := descend_ok hlook
  have hdn' : h.dn = sup := by rw [hdn]; simp
  have hss : NoSlash sup := fun x hx => hs x (List.mem_cons_of_mem _ hx)
  have hr := slash_of hs (r := r) List.mem_cons_self
  have hr0 : r ≠ [] := hp.rdns r List.mem_cons_self
  have hparse := Dn.Rdn.parse_text env.U r (hp.types r List.mem_cons_self)
  have hnames : ∀ b ∈ childNames fs h.path, ∀ s, Dn.Rdn.parse env.U b = .ok s → Dn.Rdn.eq env.U s r = false := by
    intro b hb s hps
    obtain ⟨x, hx, hxc⟩ := (mem_children (children_names hcs)).2 b hb
    obtain ⟨s', h1, _, h3⟩ := child_ok hxc
    rw [hps] at h1
    cases h1
    have := List.any_eq_false.mp hany x hx
    rw [h3] at this
    simpa using this
  have hshown : ∀ b, Shown fs (dirOf base sup) b → ∀ s, Dn.Rdn.parse env.U b = .ok s → Dn.Rdn.eq env.U s r = false := by
    intro b hsb
    apply hnames b
    rw [hpath]
    exact (mem_childNames hw hb hss).mpr hsb
  have hnew : ¬ Shown fs (dirOf base sup) r.text := by
    intro hsb
    have := hshown _ hsb r hparse
    rw [Bool.eq_false_iff] at this
    exact this ((Dn.Rdn.eq_iff _ _ _).mpr rfl)
  have hnodir : isDir fs' c.path = false := by
    obtain ⟨hcp, _⟩ := make_dn hm
    unfold isDir
    rw [hcp, hpath, stat_look hw' hb' (names_of' fun x hx => hss x (List.mem_reverse.mp hx)) (isName_dir hr)]
    have e : look fs' (base ++ sup.reverse.map dirName ++ [dirName r]) = none := by
      show look fs' (dirOf base sup ++ [r.text ++ ".dir".toList]) = none
      rw [hbt.others _ (ne_dir_tmp _ _ _ _ _) (ne_dir_ldif _ _ _ _) (append_ne_self _ _).symm]
      refine Classical.byContradiction fun hne => hnew ⟨dirName r, hne, ?_, ?_⟩
      · rw [splitExt_dir hr0]
      · rw [splitExt_dir hr0]; exact .inl rfl
    rw [e]
  refine C35.gone_partial env fs' fs'' path base hb' top (r :: sup) (by simp) hp hs c hfound ?_ hnodir
  unfold deleteChild at hdel
  simp only [bind, Except.bind] at hdel
  split at hdel
  · cases hdel
  rename_i cs' hcs'
  split at hdel
  · rename_i x hx
    have hx1 := List.mem_of_find?_eq_some hx
    have hx2 := List.find?_some hx
    obtain ⟨b, hb1, hb2⟩ := (mem_children (children_names hcs')).1 x hx1
    obtain ⟨s, h1, h2, h3⟩ := child_ok hb2
    rw [h3] at hx2
    rw [hpath] at hb1
    have hb3 := (mem_childNames hw' hb' hss).mp hb1
    have hfirst : look fs (dirOf base sup) = none → sup ≠ [] ∧ ∃ p up', sup = p :: up' ∧ look fs (dirOf base up' ++ [ldifName p]) ≠ none := by
      intro hn
      cases sup with
      | nil => simp only [dirOf, List.reverse_nil, List.map_nil, List.append_nil, hb.dir] at hn; cases hn
      | cons p up =>
        refine ⟨by simp, p, up, rfl, fun hnl => ?_⟩
        have hf := descend_found hw hb (fun x hx => hss x (List.mem_reverse.mp hx)) hlook (a := up.reverse) (x := p) ⟨[], by simp⟩
        unfold found at hf
        rw [show base ++ up.reverse.map dirName ++ [dirName p] = dirOf base (p :: up) by simp [dirOf], hn,
          show base ++ up.reverse.map dirName ++ [ldifName p] = dirOf base up ++ [ldifName p] from rfl, hnl] at hf
        cases hf
    rw [shown_between hr0 (fun p hp' => hp.rdns p (List.mem_cons_of_mem _ hp')) hbt hfirst] at hb3
    rcases hb3 with hb3 | ⟨_, rfl, _⟩
    · have := hshown b hb3 s h1
      simp only at hx2
      rw [this] at hx2; cases hx2
    · have : child env fs' h r.text = .ok c := by
        simp only [child, hparse]
        rw [hdn']
        exact hm
      rw [this] at hb2
      cases hb2
      exact hdel
  · cases hdel

/-! An example: adding `cn=b` below `dc=a`, which is in the tree and has no directory yet. -/

def env : Env := C33.env
def root : Handle := C35.root
def ha : Handle := ⟨"/t/dc=a.dir".toList, [C33.a], [(.bytes (ascii "dc"), [.bytes (ascii "a")])]⟩
def bv : Verif.Attrs := [(.bytes (ascii "cn"), [.bytes (ascii "b")]), (.bytes (ascii "x"), [.bytes [10, 200]])]
def after : Fs := [(["t".toList, "dc=a.dir".toList, "cn=b.ldif".toList], .file C33.newText), (["t".toList, "dc=a.dir".toList], .dir)] ++ C33.before
def hb : Handle := ⟨"/t/dc=a.dir/cn=b.dir".toList, [C33.b, C33.a], bv⟩

example : lookup env C33.before root [C33.a] = .ok ha := by decide +kernel
theorem example_add : addChild env C33.before ha C33.b bv "u".toList = .ok (after, hb) := by decide +kernel
example : Tree.buildAttrs env.U bv = C33.new.attrs := by decide +kernel
example : lookup env after root [C33.b, C33.a] = .ok hb := by decide +kernel
example : (deleteChild env after ha C33.b).map (fun fs => lookup env fs root [C33.b, C33.a]) =
    .ok (.error (.py .noSuchObject)) := by decide +kernel

/-- The property fails for other spellings: the DN in capitals equals that of the entry, but is not found, while it cannot be
added either. -/
theorem respelled_not_found : ∃ d : Dn.Dn, Dn.Dn.eq env.U d [C33.b, C33.a] = true ∧
    lookup env after root [C33.b, C33.a] = .ok hb ∧ lookup env after root d = .error (.py .noSuchObject) ∧
    addChild env after ha (d.headD []) bv "v".toList = .error (.py .alreadyExists) :=
  ⟨[[⟨"CN".toList, "B".toList⟩], C33.a], by decide +kernel⟩

end Verif.C70
