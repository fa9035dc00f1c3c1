import Verif.Lemmas.LdifTreeCommit
import Verif.Lemmas.ServerModify
import Verif.Props.C70
import Verif.Props.C76
/-
C85  A modify request to a tree on disk: what is answered and what is stored.
-/
namespace Verif.C85
open Verif.LdifTree Verif.Spec Verif.Spec.Modify
open Verif.Server (Env ascii)
open Verif.Ldap (Obj PyVal)

variable {env : Env} {fs fs' : Fs} {path : Str} {base : Path} {top : Verif.Attrs} {r : Dn.Rdn} {up : Dn.Dn} {h : Handle}

theorem noSlash_tail (hs : NoSlash (r :: up)) : NoSlash up := fun x hx => hs x (List.mem_cons_of_mem _ hx)
theorem noSlash_reverse {d : Dn.Dn} (hs : NoSlash d) : NoSlash d.reverse := fun x hx => hs x (by simpa using hx)
theorem printable_tail (hp : PrintableDn (r :: up)) : PrintableDn up :=
  ⟨fun x hx => hp.types x (List.mem_cons_of_mem _ hx), fun x hx => hp.rdns x (List.mem_cons_of_mem _ hx)⟩

/-- Where an entry that was found is kept. -/
theorem found_place (hw : WellFormed fs) (hb : DirAt fs path base) (hs : NoSlash (r :: up))
    (hlook : lookup env fs ⟨path, [], top⟩ (r :: up) = .ok h) :
    h.path = join (joinAll path (up.reverse.map dirName)) (dirName r) ∧ h.dn = r :: up ∧
      look fs (dirOf base up) = some .dir ∧ DirAt fs (joinAll path (up.reverse.map dirName)) (dirOf base up) ∧
      found fs base up.reverse r = true := by
  rw [lookup_root] at hlook
  obtain ⟨h1, h2⟩ := descend_ok hlook
  have hf : found fs base up.reverse r = true := descend_found hw hb (noSlash_reverse hs) hlook ⟨[], by simp⟩
  have hd := found_dir hw hf
  refine ⟨?_, by rw [h2]; simp, hd, ?_, hf⟩
  · rw [h1]
    simp only [List.reverse_cons, List.map_append, List.map_cons, List.map_nil, joinAll_append]
  · exact resolve_joinAll hb (names_of (noSlash_tail hs)) (walk_of_look hw hd)

/-- What `commit` does. -/
theorem commit_eq (hw : WellFormed fs) (hb : DirAt fs path base) (hs : NoSlash (r :: up))
    (hlook : lookup env fs ⟨path, [], top⟩ (r :: up) = .ok h) (attrs : Verif.Attrs) (uuid : Str) (faults : List (Option Nat)) :
    commit env fs { h with attrs := attrs } uuid faults =
      .ok (exec fs faults (putEntry (join (joinAll path (up.reverse.map dirName)) r.text) uuid (Ldif.toWire env ⟨r :: up, attrs⟩))) := by
  obtain ⟨h1, h2, _⟩ := found_place hw hb hs hlook
  have h3 : stripDir h.path = .ok (join (joinAll path (up.reverse.map dirName)) r.text) := by
    rw [h1]
    exact stripDir_join (slash_of hs List.mem_cons_self)
  simp only [commit, h2, h3, bind, Except.bind, pure, Except.pure]

/-- Once the new file is there, the entry is found with the new values, and every other entry as before. -/
theorem after (hU : Sane env.U) (hw : WellFormed fs) (hw' : WellFormed fs') (hb : DirAt fs path base)
    (hb' : DirAt fs' path base) (hs : NoSlash (r :: up)) (hlook : lookup env fs ⟨path, [], top⟩ (r :: up) = .ok h)
    {attrs : Verif.Attrs} (he : Writable ⟨r :: up, attrs⟩) {uuid : Str} {text : Bytes} (ht : Ldif.toWire env ⟨r :: up, attrs⟩ = .ok text)
    (hshort : ShortLines text)
    (hsame : ∀ q, q ≠ dirOf base up ++ [tmpOf r.text uuid] → q ≠ dirOf base up ++ [ldifName r] → look fs' q = look fs q)
    (hfile : look fs' (dirOf base up ++ [ldifName r]) = some (.file text)) :
    (∃ c, lookup env fs' ⟨path, [], top⟩ (r :: up) = .ok c ∧ c.dn = r :: up ∧ SameValues ⟨r :: up, attrs⟩ ⟨c.dn, c.attrs⟩) ∧
      ∀ dn, PrintableDn dn → NoSlash dn → dn ≠ r :: up →
        lookup env fs' ⟨path, [], top⟩ dn = lookup env fs ⟨path, [], top⟩ dn := by
  have hp : PrintableDn (r :: up) := ⟨he.types, he.rdns⟩
  obtain ⟨hpath, hdn, hD, _, hfound⟩ := found_place hw hb hs hlook
  -- what is on the way to another entry
  have way : ∀ (a : List Dn.Rdn) (x : Dn.Rdn), PrintableDn (x :: a.reverse) → x :: a.reverse ≠ r :: up →
      found fs' base a x = found fs base a x ∧
        look fs' (base ++ a.map dirName ++ [ldifName x]) = look fs (base ++ a.map dirName ++ [ldifName x]) := by
    intro a x hax hne
    have h1 : look fs' (base ++ a.map dirName ++ [ldifName x]) = look fs (base ++ a.map dirName ++ [ldifName x]) := by
      refine hsame _ (ne_ldif_tmp _ _ _ _ _) fun e => hne ?_
      rw [show base ++ a.map dirName = dirOf base a.reverse by simp [dirOf]] at e
      obtain ⟨rfl, h2⟩ := C33.place_injective hax hp (base := base) e
      rw [h2]
    have h2 : look fs' (base ++ a.map dirName ++ [dirName x]) = look fs (base ++ a.map dirName ++ [dirName x]) :=
      hsame _ (ne_dir_tmp _ _ _ _ _) (ne_dir_ldif _ _ _ _)
    exact ⟨by unfold found; rw [h1, h2], h1⟩
  have hprefix : ∀ (dn : Dn.Dn) (a : List Dn.Rdn) (x : Dn.Rdn), PrintableDn dn → a ++ [x] <+: dn.reverse →
      PrintableDn (x :: a.reverse) ∧ x :: a.reverse <:+ dn := by
    intro dn a x hd hpre
    have hsuf : x :: a.reverse <:+ dn := by
      have := List.reverse_suffix.mpr hpre
      simpa using this
    exact ⟨⟨fun y hy => hd.types y (hsuf.subset hy), fun y hy => hd.rdns y (hsuf.subset hy)⟩, hsuf⟩
  -- the superiors
  obtain ⟨g, hg⟩ : ∃ g, descend env fs ⟨path, [], top⟩ up.reverse = .ok g := by
    rw [lookup_root, List.reverse_cons, descend_append] at hlook
    cases hx : descend env fs ⟨path, [], top⟩ up.reverse with
    | ok g => exact ⟨g, rfl⟩
    | error e => rw [hx] at hlook; cases hlook
  have hg' : descend env fs' ⟨path, [], top⟩ up.reverse = .ok g := by
    rw [← hg]
    refine descend_congr hw hw' hb hb' _ (noSlash_reverse (noSlash_tail hs)) fun a x hpre => ?_
    obtain ⟨h1, h2⟩ := hprefix up a x (printable_tail hp) hpre
    refine way a x h1 fun e => ?_
    have := h2.length_le
    rw [e] at this
    simp at this
    omega
  obtain ⟨hgp, hgd⟩ := descend_ok hg
  have hgd' : g.dn = up := by rw [hgd]; simp
  obtain ⟨e', h1, h2⟩ := C33.readEntry_wire env hU _ he ht hshort
  obtain ⟨l, h3, h4⟩ := C70.load_values hU he h2
  have hs' : NoSlash (up.reverse ++ [r]) := by
    have := noSlash_reverse hs
    rwa [List.reverse_cons] at this
  have hc : descend env fs' ⟨path, [], top⟩ (up.reverse ++ [r]) =
      .ok ⟨join g.path (dirName r), r :: up, Tree.buildAttrs env.U l⟩ := by
    rw [descend_append, hg']
    show descend env fs' g [r] = _
    have hfile' : look fs' (base ++ up.reverse.map dirName ++ [ldifName r]) = some (.file text) := hfile
    rw [descend_step hw' hb' hs' (by rw [hgp]), hgd', if_pos (by unfold found; rw [hfile']; simp), if_neg (C35.text_ne hp (by simp))]
    simp only [loadAt, contentAt, hfile', h1, h3, Except.bind, Except.map]
  refine ⟨⟨_, by rw [lookup_root, List.reverse_cons]; exact hc, rfl, h4⟩, fun dn hd hds hne => ?_⟩
  rw [lookup_root, lookup_root]
  by_cases hsuf : (r :: up) <:+ dn
  · obtain ⟨pre, rfl⟩ := hsuf
    have hpre : pre ≠ [] := fun e => hne (by rw [e]; rfl)
    rw [lookup_root] at hlook
    rw [List.reverse_append, descend_append, descend_append, hlook, List.reverse_cons, hc]
    refine descend_congr_from hw hw' hb hb' pre.reverse (r :: up).reverse h _ (by simpa using hpre) ?_ ?_ hdn.symm ?_ ?_
    · rw [hpath, List.reverse_cons, List.map_append, List.map_cons, List.map_nil, joinAll_append]
    · rw [hpath]
      show join g.path _ = _
      rw [hgp]
    · rw [← List.reverse_append]; exact noSlash_reverse hds
    · intro a x hpre'
      have hfull : (r :: up).reverse ++ a ++ [x] <+: (pre ++ r :: up).reverse := by
        rw [List.reverse_append, List.append_assoc]
        exact (List.prefix_append_right_inj _).mpr hpre'
      obtain ⟨h5, h6⟩ := hprefix _ ((r :: up).reverse ++ a) x hd hfull
      refine way _ x h5 fun e => ?_
      have := congrArg List.length e
      simp at this
      omega
  · refine descend_congr hw hw' hb hb' _ (noSlash_reverse hds) fun a x hpre => ?_
    obtain ⟨h5, h6⟩ := hprefix dn a x hd hpre
    exact way a x h5 fun e => hsuf (e ▸ h6)

/-- **C85** If `commit` gives `True`, the entry is found again with the values it has now, and every other entry as before. -/
theorem committed_partial (env : Env) (hU : Sane env.U) (fs : Fs) (hw : WellFormed fs) (path : Str) (base : Path)
    (hb : DirAt fs path base) (top : Verif.Attrs) (dn : Dn.Dn) (hne : dn ≠ []) (hs : NoSlash dn) (h : Handle)
    (hlook : lookup env fs ⟨path, [], top⟩ dn = .ok h) (attrs : Verif.Attrs) (he : Writable ⟨dn, attrs⟩)
    (hshort : ∀ text, Ldif.toWire env ⟨dn, attrs⟩ = .ok text → ShortLines text) (uuid : Str) (hu : '/' ∉ uuid)
    (faults : List (Option Nat)) (fs' : Fs) (hc : commit env fs { h with attrs := attrs } uuid faults = .ok (fs', true)) :
    (∃ c, lookup env fs' ⟨path, [], top⟩ dn = .ok c ∧ c.dn = dn ∧ SameValues ⟨dn, attrs⟩ ⟨c.dn, c.attrs⟩) ∧
      ∀ dn', PrintableDn dn' → NoSlash dn' → dn' ≠ dn →
        lookup env fs' ⟨path, [], top⟩ dn' = lookup env fs ⟨path, [], top⟩ dn' := by
  obtain ⟨r, up, rfl⟩ := List.exists_cons_of_ne_nil hne
  rw [commit_eq hw hb hs hlook, Except.ok.injEq] at hc
  obtain ⟨_, _, _, hD, _⟩ := found_place hw hb hs hlook
  have hr := slash_of hs (r := r) List.mem_cons_self
  have hrun := exec_true hc
  have hstop := stopped_run hrun
  obtain ⟨h1, _, hk⟩ := stopped_putEntry hD hr hu hstop
  obtain ⟨text, ht, hfile⟩ := run_putEntry_ok hD hr hu hrun
  exact after hU hw (wellFormed_stopped hw hstop) hb (hb.keeps hk) hs hlook he ht (hshort text ht) h1 hfile

/-- If `commit` gives `False`, every entry is found as it was before. -/
theorem not_committed_partial (env : Env) (fs : Fs) (hw : WellFormed fs) (path : Str) (base : Path)
    (hb : DirAt fs path base) (top : Verif.Attrs) (dn : Dn.Dn) (hne : dn ≠ []) (hs : NoSlash dn) (h : Handle)
    (hlook : lookup env fs ⟨path, [], top⟩ dn = .ok h) (attrs : Verif.Attrs) (uuid : Str) (hu : '/' ∉ uuid)
    (faults : List (Option Nat)) (fs' : Fs) (hc : commit env fs { h with attrs := attrs } uuid faults = .ok (fs', false))
    (dn' : Dn.Dn) (hd : NoSlash dn') : lookup env fs' ⟨path, [], top⟩ dn' = lookup env fs ⟨path, [], top⟩ dn' := by
  obtain ⟨r, up, rfl⟩ := List.exists_cons_of_ne_nil hne
  rw [commit_eq hw hb hs hlook, Except.ok.injEq] at hc
  obtain ⟨_, _, _, hD, _⟩ := found_place hw hb hs hlook
  have hstop := exec_false (l := [_, _]) hc
  obtain ⟨h1, hk⟩ := stopped_before hD (slash_of hs List.mem_cons_self) hu hstop
  exact lookup_same hw (wellFormed_stopped hw hstop) hb (hb.keeps hk) h1 dn' hd

/-- Wherever a commit stops, because the process dies, an entry is found as it was, or, the one committed, with the new
values. -/
theorem stopped_partial (env : Env) (hU : Sane env.U) (fs : Fs) (hw : WellFormed fs) (path : Str) (base : Path)
    (hb : DirAt fs path base) (top : Verif.Attrs) (dn : Dn.Dn) (hne : dn ≠ []) (hs : NoSlash dn) (h : Handle)
    (hlook : lookup env fs ⟨path, [], top⟩ dn = .ok h) (attrs : Verif.Attrs) (he : Writable ⟨dn, attrs⟩)
    (hshort : ∀ text, Ldif.toWire env ⟨dn, attrs⟩ = .ok text → ShortLines text) (uuid : Str) (hu : '/' ∉ uuid)
    (file : Str) (hfile : stripDir h.path = .ok file) (fs' : Fs)
    (hstop : Stopped fs (putEntry file uuid (Ldif.toWire env ⟨dn, attrs⟩)) fs')
    (dn' : Dn.Dn) (hp : PrintableDn dn') (hd : NoSlash dn') :
    lookup env fs' ⟨path, [], top⟩ dn' = lookup env fs ⟨path, [], top⟩ dn' ∨
      dn' = dn ∧ ∃ c, lookup env fs' ⟨path, [], top⟩ dn' = .ok c ∧ c.dn = dn ∧ SameValues ⟨dn, attrs⟩ ⟨c.dn, c.attrs⟩ := by
  obtain ⟨r, up, rfl⟩ := List.exists_cons_of_ne_nil hne
  obtain ⟨hpath, _, _, hD, _⟩ := found_place hw hb hs hlook
  have hr := slash_of hs (r := r) List.mem_cons_self
  rw [hpath, show dirName r = r.text ++ ".dir".toList from rfl, stripDir_join hr, Except.ok.injEq] at hfile
  subst hfile
  obtain ⟨h1, h2, hk⟩ := stopped_putEntry hD hr hu hstop
  have hw' := wellFormed_stopped hw hstop
  rcases h2 with h2 | ⟨text, ht, h2⟩
  · left
    refine lookup_same hw hw' hb (hb.keeps hk) (D := dirOf base up) (n := r.text) (uuid := uuid) (fun q hq => ?_) dn' hd
    by_cases hq' : q = dirOf base up ++ [r.text ++ ".ldif".toList]
    · rw [hq', h2]
    · exact h1 q hq hq'
  · obtain ⟨h3, h4⟩ := after hU hw hw' hb (hb.keeps hk) hs hlook he ht (hshort text ht) h1 h2
    by_cases hdn : dn' = r :: up
    · right
      subst hdn
      exact ⟨rfl, h3⟩
    · exact .inl (h4 dn' hp hd hdn)

/-! ### Modify requests -/

/-- The names of the attributes after some modifications are old ones or those of the modifications. -/
theorem set_names {U : Unicode} {k : PyStr} {vs : List PyStr} {d : Verif.Attrs} {p : PyStr × List PyStr} (hp : p ∈ d.set U k vs) :
    p.1 = k ∨ ∃ q ∈ d, q.1 = p.1 := by
  induction d with
  | nil => rw [Attrs.set, List.mem_singleton] at hp; exact .inl (by rw [hp])
  | cons q d ih =>
    rw [Attrs.set] at hp
    split at hp
    · rcases List.mem_cons.mp hp with rfl | hp
      · exact .inl rfl
      · exact .inr ⟨p, List.mem_cons_of_mem _ hp, rfl⟩
    · rcases List.mem_cons.mp hp with rfl | hp
      · exact .inr ⟨_, List.mem_cons_self, rfl⟩
      · rcases ih hp with h | ⟨q', h, e⟩
        · exact .inl h
        · exact .inr ⟨q', List.mem_cons_of_mem _ h, e⟩

theorem erase_names {U : Unicode} {k : PyStr} {d : Verif.Attrs} {p : PyStr × List PyStr} (hp : p ∈ d.erase U k) : p ∈ d := by
  induction d with
  | nil => cases hp
  | cons q d ih =>
    rw [Attrs.erase] at hp
    split at hp
    · exact List.mem_cons_of_mem _ hp
    · rcases List.mem_cons.mp hp with rfl | hp
      · exact List.mem_cons_self
      · exact List.mem_cons_of_mem _ (ih hp)

theorem update_names {U : Unicode} {k : PyStr} {f : List PyStr → List PyStr} {d : Verif.Attrs} {p : PyStr × List PyStr}
    (hp : p ∈ d.update U k f) : ∃ q ∈ d, q.1 = p.1 := by
  induction d with
  | nil => cases hp
  | cons q d ih =>
    rw [Attrs.update] at hp
    split at hp
    · rcases List.mem_cons.mp hp with rfl | hp
      · exact ⟨_, List.mem_cons_self, rfl⟩
      · exact ⟨p, List.mem_cons_of_mem _ hp, rfl⟩
    · rcases List.mem_cons.mp hp with rfl | hp
      · exact ⟨_, List.mem_cons_self, rfl⟩
      · obtain ⟨q', h, e⟩ := ih hp
        exact ⟨q', List.mem_cons_of_mem _ h, e⟩

theorem changeItem_names {U : Unicode} {k : PyStr} {f : List PyStr → Py (List PyStr)} {e : Entry} {p : PyStr × List PyStr}
    (hp : p ∈ (e.changeItem U k f).1.attrs) : ∃ q ∈ e.attrs, q.1 = p.1 := by
  unfold Entry.changeItem at hp
  split at hp
  · exact ⟨p, hp, rfl⟩
  · split at hp
    · exact ⟨p, hp, rfl⟩
    · split at hp
      · exact update_names hp
      · exact ⟨p, hp, rfl⟩

theorem removeLoop_names {U : Unicode} {k : PyStr} {vs : List PyStr} {e : Entry} {p : PyStr × List PyStr}
    (hp : p ∈ (Delta.removeLoop U k vs e).1.attrs) : ∃ q ∈ e.attrs, q.1 = p.1 := by
  induction vs generalizing e with
  | nil => exact ⟨p, hp, rfl⟩
  | cons v vs ih =>
    rw [Delta.removeLoop] at hp
    have h := fun p => changeItem_names (U := U) (k := k) (f := fun s => AttributeSet.remove s v) (e := e) (p := p)
    split at hp
    · rename_i e' he
      rw [he] at h
      obtain ⟨q, h1, h2⟩ := ih hp
      obtain ⟨q', h3, h4⟩ := h q h1
      exact ⟨q', h3, h4.trans h2⟩
    · rename_i he
      rw [he] at h
      exact h p hp

theorem patch_names {U : Unicode} {m : Mod} {e : Entry} {p : PyStr × List PyStr} (hp : p ∈ (Delta.patch U m e).1.attrs) :
    p.1 = m.key ∨ ∃ q ∈ e.attrs, q.1 = p.1 := by
  have del : ∀ e', e.delItem U m.key = .ok e' → p ∈ e'.attrs → ∃ q ∈ e.attrs, q.1 = p.1 := by
    intro e' h hp
    unfold Entry.delItem at h
    split at h <;> cases h
    exact ⟨p, erase_names hp, rfl⟩
  unfold Delta.patch at hp
  split at hp
  · split at hp
    · exact .inr ⟨p, hp, rfl⟩
    · exact .inr (changeItem_names hp)
    · exact set_names hp
  · split at hp
    · split at hp
      · exact .inr (del _ ‹_› hp)
      · exact .inr ⟨p, hp, rfl⟩
    · exact .inr (removeLoop_names hp)
  · split at hp
    · split at hp
      · exact .inr (del _ ‹_› hp)
      · exact .inr ⟨p, hp, rfl⟩
      · exact .inr ⟨p, hp, rfl⟩
    · exact set_names hp

theorem patchAll_names {U : Unicode} {ms : List Mod} {e : Entry} {p : PyStr × List PyStr} (hp : p ∈ (Delta.patchAll U ms e).1.attrs) :
    (∃ m ∈ ms, p.1 = m.key) ∨ ∃ q ∈ e.attrs, q.1 = p.1 := by
  induction ms generalizing e with
  | nil => exact .inr ⟨p, hp, rfl⟩
  | cons m ms ih =>
    rw [Delta.patchAll] at hp
    have h := fun p => patch_names (U := U) (m := m) (e := e) (p := p)
    split at hp
    · rename_i e' he
      rw [he] at h
      rcases ih hp with ⟨m', h1, h2⟩ | ⟨q, h1, h2⟩
      · exact .inl ⟨m', List.mem_cons_of_mem _ h1, h2⟩
      · rcases h q h1 with h3 | ⟨q', h3, h4⟩
        · exact .inl ⟨m, List.mem_cons_self, by rw [← h2, h3]⟩
        · exact .inr ⟨q', h3, h4.trans h2⟩
    · rename_i he
      rw [he] at h
      rcases h p hp with h3 | h3
      · exact .inl ⟨m, List.mem_cons_self, h3⟩
      · exact .inr h3

/-- An entry as octets can be written. -/
theorem writable_octets {dn : Dn.Dn} (hp : PrintableDn dn) {attrs : Verif.Attrs} (ht : rawOctets.Tidy attrs)
    (hn : ∀ p ∈ attrs, LdifName p.1.toBytes) : Writable ⟨dn, attrs⟩ := by
  refine ⟨⟨fun k vs hk => (ht.names _ hk).ascii, ?_⟩, fun k vs hk => hn _ hk, fun k vs hk => ?_, hp.types, hp.rdns⟩
  · refine ht.apart.imp fun h e => h ?_
    exact e
  · exact .inr fun v hv => ht.values _ hk v hv

theorem sameValues_content {dn dn' : Dn.Dn} {d d' : Verif.Attrs} (h : SameValues ⟨dn, d⟩ ⟨dn', d'⟩) : Same (content d) (content d') := by
  have one : ∀ {dn dn' : Dn.Dn} {d d' : Verif.Attrs}, (∀ a b, HasValue ⟨dn, d⟩ a b → HasValue ⟨dn', d'⟩ a b) →
      ∀ n b, content d n b → content d' n b := by
    rintro dn dn' d d' h n b ⟨p, hp, rfl, v, hv, rfl⟩
    obtain ⟨vs, w, ⟨k, hk, hs⟩, hw, e⟩ := h p.1 v.toBytes ⟨p.2, v, ⟨p.1, hp, rfl⟩, hv, rfl⟩
    exact ⟨(k, vs), hk, hs, w, hw, e⟩
  exact fun n b => ⟨one (fun a b => (h a b).mp) n b, one (fun a b => (h a b).mpr) n b⟩

/-- The answer that says a modify request was carried out. -/
def success : Obj := (Op.result .modify 0 [] []).build

theorem wanted (env : Env) (object : Bytes) (text : Str) (d : Dn.Dn) (htext : Utf8.decode object = .ok text)
    (hd : Dn.Dn.parse env.U text = .ok d) (ms : List Change) :
    modifyWanted env (.bytes object) (ms.map fun m => changeObj m.wire) none = .ok (d, ms.map Delta.modFor) := by
  have hread : Server.readDn env.U (.bytes object) = .ok d := by
    simp only [Server.readDn, htext, bind, Except.bind]; exact hd
  simp only [modifyWanted, Server.checkControls, C76.mapM_changes, Server.lift, hread, bind, Except.bind, pure, Except.pure]

/-- **C85** If nothing raises, a modify request that RFC 4511 says has to be accepted is answered with success, the entry then
found on disk is what RFC 4511 says, and every other entry is as before. -/
theorem modified_partial (env : Env) (hU : Sane env.U) (fs : Fs) (hw : WellFormed fs) (path : Str) (base : Path)
    (hb : DirAt fs path base) (top : Verif.Attrs) (object : Bytes) (text : Str) (dn : Dn.Dn)
    (htext : Utf8.decode object = .ok text) (hparse : Dn.Dn.parse env.U text = .ok dn) (hne : dn ≠ []) (hp : PrintableDn dn)
    (hs : NoSlash dn) (h : Handle) (hlook : lookup env fs ⟨path, [], top⟩ dn = .ok h) (ht : rawOctets.Tidy h.attrs)
    (hn : ∀ p ∈ h.attrs, LdifName p.1.toBytes) (ms : List Change) (hk : ∀ m ∈ ms, Utf8.AsciiBytes m.attr ∧ LdifName m.attr)
    (hdec : ∀ m ∈ ms, m.kind = .delete → ∀ b ∈ m.values, (PyStr.bytes b).Decodable) (hacc : AllAccepted ms (content h.attrs))
    (uuid : Str) (hu : '/' ∉ uuid) (hshort : ∀ e' text, Delta.patchAll env.U (ms.map Delta.modFor) ⟨h.dn, h.attrs⟩ = (e', none) →
      Ldif.toWire env ⟨dn, e'.attrs⟩ = .ok text → ShortLines text)
    (hfile : ∀ n, look fs (dirOf base dn.up ++ [n ++ ".ldif".toList]) ≠ some .dir)
    (htmp : ∀ n, look fs (dirOf base dn.up ++ [n ++ ".tmp".toList]) ≠ some .dir) :
    ∃ fs' c, handleModify env fs ⟨path, [], top⟩ uuid [] (.bytes object) (ms.map fun m => changeObj m.wire) none = (fs', .ok success) ∧
      lookup env fs' ⟨path, [], top⟩ dn = .ok c ∧ Same (content c.attrs) (effects ms (content h.attrs)) ∧
      ∀ dn', PrintableDn dn' → NoSlash dn' → dn' ≠ dn →
        lookup env fs' ⟨path, [], top⟩ dn' = lookup env fs ⟨path, [], top⟩ dn' := by
  obtain ⟨r, up, rfl⟩ := List.exists_cons_of_ne_nil hne
  obtain ⟨e', h1, h2, h3, h4⟩ := Delta.patchAll_effects (e := ⟨h.dn, h.attrs⟩) hU ms ht (fun m hm => (hk m hm).1) hdec hacc
  have hnames : ∀ p ∈ e'.attrs, LdifName p.1.toBytes := by
    intro p hp
    rw [← show (Delta.patchAll env.U (ms.map Delta.modFor) ⟨h.dn, h.attrs⟩).1 = e' by rw [h1]] at hp
    rcases patchAll_names hp with ⟨m, hm, e⟩ | ⟨q, hq, e⟩
    · obtain ⟨x, hx, rfl⟩ := List.mem_map.mp hm
      rw [e]
      exact (hk x hx).2
    · rw [← e]
      exact hn q hq
  have hwr := writable_octets hp h2 hnames
  obtain ⟨_, _, _, hD, _⟩ := found_place hw hb hs hlook
  obtain ⟨text', ht', _⟩ := C29.entry_roundtrip env hU _ hwr
  have hr := slash_of hs (r := r) List.mem_cons_self
  obtain ⟨fs', hrun, _⟩ := C33.run_putEntry (b := text') hD hr hu
    (htmp (r.text ++ ['.'] ++ uuid)) (hfile r.text)
  have hc : commit env fs { h with attrs := e'.attrs } uuid [] = .ok (fs', true) := by
    rw [commit_eq hw hb hs hlook, ht', exec_none hrun]
  obtain ⟨⟨c, h5, _, h6⟩, h7⟩ := committed_partial env hU fs hw path base hb top (r :: up) hne hs h hlook e'.attrs hwr
    (hshort e' · h1) uuid hu [] fs' hc
  refine ⟨fs', c, ?_, h5, fun n b => ?_, h7⟩
  · simp only [handleModify, wanted env object text _ htext hparse, hlook, h1, hc]
    rfl
  · rw [← h4 n b]
    exact (sameValues_content h6 n b).symm

/-- A modify request that is not answered with success changes nothing on disk. -/
theorem refused_unchanged (env : Env) (fs : Fs) (root : Handle) (uuid : Str) (faults : List (Option Nat)) (object : PyVal)
    (mods : List Obj) (controls : Option (List (PyVal × PyVal × PyVal))) (f : Server.Fault) (fs' : Fs)
    (h : handleModify env fs root uuid faults object mods controls = (fs', .error f)) : fs' = fs := by
  unfold handleModify at h
  split at h
  · cases h; rfl
  · split at h
    · cases h; rfl
    · split at h
      · cases h; rfl
      · split at h
        · cases h; rfl
        · cases h

/-- **The property fails**: the answer does not depend on whether a system call raises. -/
theorem answer_regardless (env : Env) (fs : Fs) (root : Handle) (uuid : Str) (faults : List (Option Nat)) (object : PyVal)
    (mods : List Obj) (controls : Option (List (PyVal × PyVal × PyVal))) :
    (handleModify env fs root uuid faults object mods controls).2 = (handleModify env fs root uuid [] object mods controls).2 := by
  unfold handleModify
  split
  · rfl
  · split
    · rfl
    · split
      · rfl
      · rename_i h _ _ _ _
        simp only [commit, bind, Except.bind, pure, Except.pure]
        cases stripDir h.path <;> rfl

/-! An example: `cn=b,dc=a` is in the tree below `/t` and gets another value. -/

def asked : List Change := [⟨.add, ascii "sn", [ascii "y"]⟩, ⟨.delete, ascii "x", []⟩]
def text2 : Bytes := ascii "dn: cn=b,dc=a\ncn: b\nsn: y\n\n"
def after2 : Fs :=
  [(["t".toList, "dc=a.dir".toList, "cn=b.ldif".toList], .file text2), (["t".toList, "dc=a.dir".toList], .dir)] ++ C33.before
def changed : Handle := ⟨"/t/dc=a.dir/cn=b.dir".toList, [C33.b, C33.a],
  [(.bytes (ascii "cn"), [.bytes (ascii "b")]), (.bytes (ascii "sn"), [.bytes (ascii "y")])]⟩

theorem example_lookup : lookup C70.env C70.after C70.root [C33.b, C33.a] = .ok C70.hb := by decide +kernel

example : WellFormed C70.after := wellFormed_of_all (by decide +kernel)
example : DirAt C70.after "/t".toList ["t".toList] := ⟨by decide +kernel, by decide +kernel⟩
example : Utf8.decode (ascii "cn=b,dc=a") = .ok "cn=b,dc=a".toList ∧ Dn.Dn.parse C70.env.U "cn=b,dc=a".toList = .ok [C33.b, C33.a] := by
  decide +kernel
theorem example_tidy : rawOctets.Tidy C70.hb.attrs := by
  have h1 : ∀ p ∈ C70.hb.attrs, ∀ b ∈ p.1.toBytes, b.toNat < 128 := by decide +kernel
  have h2 : ∀ p ∈ C70.hb.attrs, p.1.isText = false := by decide +kernel
  have h3 : ∀ p ∈ C70.hb.attrs, ∀ v ∈ p.2, v.isText = false := by decide +kernel
  exact ⟨⟨fun p hp => ⟨h1 p hp, h2 p hp⟩, by decide +kernel⟩, fun p hp v hv => h3 p hp v hv, by decide +kernel⟩
theorem example_accepted : AllAccepted asked (content C70.hb.attrs) := by
  refine ⟨⟨by decide, by decide +kernel, ?_⟩, ⟨⟨[10, 200], ?_⟩, by decide, nofun⟩, trivial⟩
  · show ∀ b ∈ [ascii "y"], ¬ content C70.hb.attrs (fold (ascii "sn")) b
    intro b hb
    rw [List.mem_singleton.mp hb]
    unfold content
    decide +kernel
  · unfold Change.effect
    rw [if_neg (by decide +kernel)]
    show content C70.hb.attrs (fold (ascii "x")) [10, 200]
    unfold content
    decide +kernel
theorem no_dir {fs : Fs} {s : Str} (h : fs.all (fun e => decide (e.2 ≠ .dir) || !s.isSuffixOf (e.1.getLast?.getD [])) = true)
    (D : Path) (n : Str) : look fs (D ++ [n ++ s]) ≠ some .dir := by
  intro e
  unfold look at e
  rw [if_neg (by simp)] at e
  obtain ⟨x, hx, hd⟩ := Option.map_eq_some_iff.mp e
  have h1 := List.mem_of_find?_eq_some hx
  have h2 := List.find?_some hx
  have h3 := List.all_eq_true.mp h x h1
  rw [hd] at h3
  simp only [decide_eq_true_eq] at h2
  rw [h2] at h3
  have h4 : s.isSuffixOf (n ++ s) = true := List.isSuffixOf_iff_suffix.mpr (List.suffix_append _ _)
  simp [h4] at h3

/-- All hypotheses of `modified_partial` can be met. -/
example : ∃ fs' c, handleModify C70.env C70.after C70.root "v".toList [] (.bytes (ascii "cn=b,dc=a"))
      (asked.map fun m => changeObj m.wire) none = (fs', .ok success) ∧
    lookup C70.env fs' C70.root [C33.b, C33.a] = .ok c ∧ Same (content c.attrs) (effects asked (content C70.hb.attrs)) := by
  have hU : Sane C70.env.U := asciiTables_sane
  have hm : ∀ m ∈ asked, Utf8.AsciiBytes m.attr ∧ 58 ∉ m.attr ∧ 10 ∉ m.attr ∧ m.attr.head? ≠ some 32 ∧ m.attr.head? ≠ some 35 := by
    unfold Utf8.AsciiBytes; decide +kernel
  have hn : ∀ p ∈ C70.hb.attrs, 58 ∉ p.1.toBytes ∧ 10 ∉ p.1.toBytes ∧ p.1.toBytes.head? ≠ some 32 ∧ p.1.toBytes.head? ≠ some 35 := by
    decide +kernel
  obtain ⟨fs', c, h1, h2, h3, _⟩ := modified_partial C70.env hU C70.after (wellFormed_of_all (by decide +kernel)) "/t".toList ["t".toList]
    ⟨by decide +kernel, by decide +kernel⟩ [] (ascii "cn=b,dc=a") "cn=b,dc=a".toList [C33.b, C33.a] (by decide +kernel) (by decide +kernel)
    (by decide) ⟨by decide +kernel, by decide +kernel⟩ (by unfold NoSlash; decide +kernel) C70.hb example_lookup example_tidy
    (fun p hp => ⟨(hn p hp).1, (hn p hp).2.1, (hn p hp).2.2.1, (hn p hp).2.2.2⟩) asked
    (fun m h => ⟨(hm m h).1, (hm m h).2.1, (hm m h).2.2.1, (hm m h).2.2.2.1, (hm m h).2.2.2.2⟩)
    (fun m h hk b hb => by
      have : ∀ m ∈ asked, m.kind = .delete → m.values = [] := by decide +kernel
      rw [this m h hk] at hb
      cases hb) example_accepted "v".toList (by decide)
    (fun e' text h ht a l c' htext hl => by
      have h0 : Delta.patchAll C70.env.U (asked.map Delta.modFor) ⟨C70.hb.dn, C70.hb.attrs⟩ = (⟨changed.dn, changed.attrs⟩, none) := by
        decide +kernel
      rw [h0] at h
      cases h
      have h1 : Ldif.toWire C70.env ⟨[C33.b, C33.a], changed.attrs⟩ = .ok text2 := by decide +kernel
      rw [h1] at ht
      cases ht
      have h2 : text2.length ≤ 16384 := by decide +kernel
      rw [htext] at h2
      simp only [List.length_append] at h2
      omega)
    (no_dir (by decide +kernel) _) (no_dir (by decide +kernel) _)
  exact ⟨fs', c, h1, h2, h3⟩

theorem example_handled : (handleModify C70.env C70.after C70.root "v".toList [] (.bytes (ascii "cn=b,dc=a"))
    (asked.map fun m => changeObj m.wire) none).1 = after2 := by decide +kernel
example : lookup C70.env after2 C70.root [C33.b, C33.a] = .ok changed ∧
    lookup C70.env after2 C70.root [C33.a] = lookup C70.env C70.after C70.root [C33.a] := by decide +kernel
example : exec C70.after [] (putEntry "/t/dc=a.dir/cn=b".toList "v".toList (.ok text2)) = (after2, true) ∧
    (exec C70.after [none, some 3] (putEntry "/t/dc=a.dir/cn=b".toList "v".toList (.ok text2))).2 = false := by decide +kernel

/-- **The property fails**: the disk is full after three octets; the client is told that the entry was modified, which it was
not. -/
theorem success_unstored : ∃ (faults : List (Option Nat)) (fs' : Fs),
    handleModify C70.env C70.after C70.root "v".toList faults (.bytes (ascii "cn=b,dc=a"))
      (asked.map fun m => changeObj m.wire) none = (fs', .ok success) ∧
    lookup C70.env fs' C70.root [C33.b, C33.a] = .ok C70.hb ∧
    ¬ Same (content C70.hb.attrs) (effects asked (content C70.hb.attrs)) := by
  refine ⟨[none, some 3], (handleModify C70.env C70.after C70.root "v".toList [none, some 3] (.bytes (ascii "cn=b,dc=a"))
    (asked.map fun m => changeObj m.wire) none).1, Prod.ext rfl ?_, by decide +kernel, fun h => ?_⟩
  · rw [answer_regardless]
    unfold handleModify
    rw [wanted C70.env (ascii "cn=b,dc=a") "cn=b,dc=a".toList [C33.b, C33.a] (by decide +kernel) (by decide +kernel)]
    simp only [example_lookup]
    rfl
  · have h1 := (h (fold (ascii "sn")) (ascii "y")).mpr (by
      simp only [effects, asked, List.foldl_cons, List.foldl_nil]
      unfold Change.effect
      rw [if_neg (by decide +kernel), if_pos rfl]
      exact .inr (by decide +kernel))
    revert h1
    unfold content
    decide +kernel

end Verif.C85
