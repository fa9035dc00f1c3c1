import Verif.Lemmas.LdifTreeList
import Verif.Lemmas.DnOrder
/-
Looking up entries in the tree of LDIF files.
-/
namespace Verif.LdifTree
open Verif.Spec
open Verif.Server (Env)

/-- The way down from an entry, outermost RDN first. -/
def descend (env : Env) (fs : Fs) (h : Handle) : List Dn.Rdn → Except Err Handle
  | [] => .ok h
  | r :: rs =>
    if !isDir fs (join h.path (dirName r)) && !isFile fs (join h.path (ldifName r)) then .error (.py .noSuchObject)
    else (make env fs (join h.path (dirName r)) (r :: h.dn)).bind fun c => descend env fs c rs

theorem make_dn {env : Env} {fs : Fs} {path : Str} {dn : Dn.Dn} {h : Handle} (hm : make env fs path dn = .ok h) :
    h.path = path ∧ h.dn = dn := by
  unfold make at hm
  split at hm
  · cases hm; exact ⟨rfl, rfl⟩
  · simp only [bind, Except.bind, pure, Except.pure] at hm
    split at hm
    · cases hm
    · cases hm; exact ⟨rfl, rfl⟩

theorem lookup_descend {env : Env} {fs : Fs} (rs : List Dn.Rdn) (h : Handle) (n : Nat) (hn : rs.length < n) :
    lookupLoop env fs n h (rs.reverse ++ h.dn) = descend env fs h rs := by
  induction rs generalizing h n with
  | nil =>
    cases n with
    | zero => cases hn
    | succ n =>
      rw [lookupLoop, descend]
      have h1 : Dn.Dn.contains env.U h.dn ([].reverse ++ h.dn) = true := by
        rw [Dn.contains_iff]; simp
      have h2 : Dn.Dn.eq env.U ([].reverse ++ h.dn) h.dn = true := by
        rw [Dn.Dn.eq_iff]; simp
      rw [h1, h2]; rfl
  | cons r rs ih =>
    cases n with
    | zero => cases hn
    | succ n =>
      rw [lookupLoop, descend]
      have h1 : Dn.Dn.contains env.U h.dn ((r :: rs).reverse ++ h.dn) = true := by
        rw [Dn.contains_iff, foldDn, foldDn, List.map_append]
        exact ⟨_, rfl⟩
      have h2 : Dn.Dn.eq env.U ((r :: rs).reverse ++ h.dn) h.dn = false := by
        rw [Bool.eq_false_iff, ne_eq, Dn.Dn.eq_iff]
        intro e
        have := congrArg List.length e
        simp [foldDn] at this
        omega
      have h3 : Dn.Dn.eq env.U (((r :: rs).reverse ++ h.dn).drop (((r :: rs).reverse ++ h.dn).length - h.dn.length)) h.dn = true := by
        rw [Dn.Dn.eq_iff, List.length_append, Nat.add_sub_cancel, List.drop_left]
      have h4 : ((r :: rs).reverse ++ h.dn)[((r :: rs).reverse ++ h.dn).length - h.dn.length - 1]? = some r := by
        rw [List.length_append, Nat.add_sub_cancel, List.length_reverse, List.reverse_cons]
        simp
      rw [h1, h2, h3, h4]
      have h5 : h.dn.length < ((r :: rs).reverse ++ h.dn).length := by simp; omega
      simp only [Bool.not_true, Bool.false_eq_true, if_false, and_false, not_true_eq_false, h5]
      split
      · rfl
      · simp only [bind]
        cases hm : make env fs (join h.path (dirName r)) (r :: h.dn) with
        | error e => rfl
        | ok c =>
          obtain ⟨hp, hd⟩ := make_dn hm
          simp only [Except.bind]
          have := ih c n (by simpa using hn)
          rw [hd] at this
          rw [← this]
          simp

theorem descend_append {env : Env} {fs : Fs} (a b : List Dn.Rdn) (h : Handle) :
    descend env fs h (a ++ b) = (descend env fs h a).bind fun c => descend env fs c b := by
  induction a generalizing h with
  | nil => rfl
  | cons r a ih =>
    rw [List.cons_append, descend, descend]
    split
    · rfl
    · cases make env fs (join h.path (dirName r)) (r :: h.dn) with
      | error e => rfl
      | ok c => exact ih c

theorem descend_ok {env : Env} {fs : Fs} {rs : List Dn.Rdn} {h c : Handle} (hd : descend env fs h rs = .ok c) :
    c.path = joinAll h.path (rs.map dirName) ∧ c.dn = rs.reverse ++ h.dn := by
  induction rs generalizing h with
  | nil => cases hd; exact ⟨rfl, rfl⟩
  | cons r rs ih =>
    rw [descend] at hd
    split at hd
    · cases hd
    · cases hm : make env fs (join h.path (dirName r)) (r :: h.dn) with
      | error e => rw [hm] at hd; cases hd
      | ok x =>
        rw [hm] at hd
        obtain ⟨h1, h2⟩ := ih hd
        obtain ⟨h3, h4⟩ := make_dn hm
        rw [h3] at h1
        rw [h4] at h2
        exact ⟨h1, by rw [h2]; simp⟩

/-- A lookup from the root of the tree. -/
theorem lookup_root {env : Env} {fs : Fs} {path : Str} {as : Verif.Attrs} (dn : Dn.Dn) :
    lookup env fs ⟨path, [], as⟩ dn = descend env fs ⟨path, [], as⟩ dn.reverse := by
  have := lookup_descend (env := env) (fs := fs) dn.reverse ⟨path, [], as⟩ (dn.length + 1) (by simp)
  simpa [lookup] using this

/-! What a change of one file of the tree does to lookups. -/

/-- The two file systems differ at one file of the tree only. -/
structure Elsewhere (fs fs' : Fs) (D : Path) (n : Str) : Prop where
  same : ∀ q, q ≠ D ++ [n ++ ".ldif".toList] → look fs' q = look fs q
  keeps : Keeps fs fs'

theorem Elsewhere.walk {fs fs' : Fs} {D : Path} {n : Str} (h : Elsewhere fs fs' D n) {p : Path} {ds : List Str}
    (hd : ∀ d ∈ ds, ∃ a, d = a ++ ".dir".toList) : walk fs' p ds = LdifTree.walk fs p ds := by
  induction ds generalizing p with
  | nil => rfl
  | cons d ds ih =>
    obtain ⟨a, rfl⟩ := hd d List.mem_cons_self
    rw [LdifTree.walk, LdifTree.walk, h.same _ (ne_dir_ldif _ _ _ _)]
    split
    · exact ih fun d h => hd d (List.mem_cons_of_mem _ h)
    · rfl
    · rfl

theorem dirs_end (d : List Dn.Rdn) : ∀ n ∈ d.map dirName, ∃ a, n = a ++ ".dir".toList := by
  intro n hn
  obtain ⟨r, _, rfl⟩ := List.mem_map.mp hn
  exact ⟨r.text, rfl⟩

theorem names_of' {d : List Dn.Rdn} (h : NoSlash d) : ∀ n ∈ d.map dirName, IsName n := by
  intro n hn
  obtain ⟨r, hr, rfl⟩ := List.mem_map.mp hn
  exact isName_dir (slash_of h hr)

theorem Elsewhere.stat_dir {fs fs' : Fs} {D : Path} {n : Str} (h : Elsewhere fs fs' D n) {path : Str} {base : Path}
    (hb : DirAt fs path base) {rs : List Dn.Rdn} {r : Dn.Rdn} (hs : NoSlash (rs ++ [r])) :
    stat fs' (join (joinAll path (rs.map dirName)) (dirName r)) = stat fs (join (joinAll path (rs.map dirName)) (dirName r)) := by
  have h1 := names_of' (d := rs) fun x hx => hs x (by simp [hx])
  have h2 := isName_dir (slash_of hs (r := r) (by simp))
  unfold stat
  rw [resolve_below hb h1 h2, resolve_below (hb.keeps h.keeps) h1 h2, h.walk (dirs_end rs)]
  cases LdifTree.walk fs base (rs.map dirName) with
  | error e => rfl
  | ok q => exact h.same _ (ne_dir_ldif _ _ _ _)

theorem Elsewhere.look_ldif {fs fs' : Fs} {D : Path} {n : Str} (h : Elsewhere fs fs' D n) {path : Str} {base : Path}
    (hb : DirAt fs path base) {rs : List Dn.Rdn} {r : Dn.Rdn} (hs : NoSlash (rs ++ [r]))
    (hne : base ++ rs.map dirName ++ [ldifName r] ≠ D ++ [n ++ ".ldif".toList]) :
    stat fs' (join (joinAll path (rs.map dirName)) (ldifName r)) = stat fs (join (joinAll path (rs.map dirName)) (ldifName r)) ∧
    openRead fs' (join (joinAll path (rs.map dirName)) (ldifName r)) =
      openRead fs (join (joinAll path (rs.map dirName)) (ldifName r)) := by
  have h1 := names_of' (d := rs) fun x hx => hs x (by simp [hx])
  have h2 := isName_ldif (slash_of hs (r := r) (by simp))
  rw [openRead_below hb h1 h2, openRead_below (hb.keeps h.keeps) h1 h2]
  unfold stat fetch
  rw [resolve_below hb h1 h2, resolve_below (hb.keeps h.keeps) h1 h2, h.walk (dirs_end rs)]
  cases hw : LdifTree.walk fs base (rs.map dirName) with
  | error e => exact ⟨rfl, rfl⟩
  | ok q =>
    rw [walk_ok hw] at *
    refine ⟨h.same _ hne, ?_⟩
    show contentAt fs' _ = contentAt fs _
    unfold contentAt
    rw [h.same _ hne]

/-- The file that `_load` opens. -/
theorem stripDir_join {gp t : Str} (ht : '/' ∉ t) : stripDir (join gp (t ++ ".dir".toList)) = .ok (join gp t) := by
  unfold stripDir
  have h : join gp (t ++ ".dir".toList) = join gp t ++ ".dir".toList := (join_append ht (by decide)).symm
  rw [h, if_pos (by simp)]
  congr 1
  rw [List.length_append]
  simp

theorem load_eq {env : Env} {fs : Fs} {gp : Str} {r : Dn.Rdn} (hr : '/' ∉ r.text) :
    load env fs (join gp (dirName r)) =
      match openRead fs (join gp (ldifName r)) with
      | .error .noEnt => .ok []
      | .error e => .error e
      | .ok b => (readEntry env.U b).bind fun e =>
        match Server.items env e with
        | .error x => .error (.py x)
        | .ok items => .ok (Tree.buildAttrs env.U items) := by
  have h1 : stripDir (join gp (dirName r)) = .ok (join gp r.text) := stripDir_join hr
  have h2 : join gp r.text ++ ".ldif".toList = join gp (ldifName r) := join_append hr (by decide)
  rw [load, h1]
  simp only [bind, Except.bind, h2]
  cases openRead fs (join gp (ldifName r)) with
  | error e => cases e <;> rfl
  | ok b => rfl

/-- One step of the way down, elsewhere. -/
theorem Elsewhere.descend {env : Env} {fs fs' : Fs} {D : Path} {n : Str} (h : Elsewhere fs fs' D n) {path : Str} {base : Path}
    (hb : DirAt fs path base) {as : Verif.Attrs} (rs : List Dn.Rdn) (hs : NoSlash rs)
    (hne : ∀ a r, a ++ [r] <+: rs → base ++ a.map dirName ++ [ldifName r] ≠ D ++ [n ++ ".ldif".toList]) :
    descend env fs' ⟨path, [], as⟩ rs = LdifTree.descend env fs ⟨path, [], as⟩ rs := by
  rcases List.eq_nil_or_concat rs with rfl | ⟨l, r, rfl⟩
  · rfl
  rw [List.concat_eq_append] at *
  have key : ∀ (k : Nat) (l : List Dn.Rdn) (r : Dn.Rdn), l.length = k → NoSlash (l ++ [r]) →
      (∀ a x, a ++ [x] <+: l ++ [r] → base ++ a.map dirName ++ [ldifName x] ≠ D ++ [n ++ ".ldif".toList]) →
      LdifTree.descend env fs' ⟨path, [], as⟩ (l ++ [r]) = LdifTree.descend env fs ⟨path, [], as⟩ (l ++ [r]) := by
    intro k
    induction k with
    | zero =>
      intro l r hl hs hne
      cases List.length_eq_zero_iff.mp hl
      have h1 := h.stat_dir hb (rs := []) (r := r) hs
      have h2 := h.look_ldif hb (rs := []) (r := r) hs (hne [] r ⟨[], by simp⟩)
      have hr := slash_of hs (r := r) (by simp)
      simp only [List.map_nil, joinAll, List.foldl_nil] at h1 h2
      simp only [List.nil_append, LdifTree.descend, isDir, isFile, h1, h2.1, make, load_eq hr, h2.2]
    | succ k ih =>
      intro l r hl hs hne
      rw [descend_append, descend_append]
      rcases List.eq_nil_or_concat l with rfl | ⟨l', r', rfl⟩
      · cases hl
      rw [List.concat_eq_append] at *
      rw [ih l' r' (by simpa using hl) (fun x hx => hs x (by simp only [List.mem_append] at hx ⊢; exact .inl hx))
        (fun a x hp => hne a x (hp.trans (List.prefix_append _ _)))]
      cases hd : LdifTree.descend env fs ⟨path, [], as⟩ (l' ++ [r']) with
      | error e => rfl
      | ok c =>
        obtain ⟨hc, hcd⟩ := descend_ok hd
        have h1 := h.stat_dir hb (rs := l' ++ [r']) (r := r) hs
        have h2 := h.look_ldif hb (rs := l' ++ [r']) (r := r) hs (hne (l' ++ [r']) r ⟨[], by simp⟩)
        have hr := slash_of hs (r := r) (by simp)
        rw [← hc] at h1 h2
        simp only [Except.bind, LdifTree.descend, isDir, isFile, h1, h2.1, make, load_eq hr, h2.2]
  exact key _ l r rfl hs hne

end Verif.LdifTree
