import Verif.Lemmas.LdifTreeLookup
import Verif.Lemmas.LdifEntry
/-
Lookups after an entry has been added to the tree of LDIF files.
-/
namespace Verif.LdifTree
open Verif.Spec
open Verif.Server (Env)

/-- In a well-formed file system, a path below a directory leads to what is there. -/
theorem stat_look {fs : Fs} (hw : WellFormed fs) {path : Str} {base : Path} (hb : DirAt fs path base) {ds : List Str} {n : Str}
    (hd : ∀ d ∈ ds, IsName d) (hn : IsName n) : stat fs (join (joinAll path ds) n) = look fs (base ++ ds ++ [n]) := by
  unfold stat
  rw [resolve_below hb hd hn]
  cases hx : walk fs base ds with
  | ok q => rw [walk_ok hx]; rfl
  | error e =>
    simp only [Except.map]
    cases hl : look fs (base ++ ds ++ [n]) with
    | none => rfl
    | some x =>
      have := walk_of_look hw (hw _ _ (by rw [hl]; simp))
      rw [hx] at this; cases this

/-- There is an entry or a directory for one. -/
def found (fs : Fs) (base : Path) (a : List Dn.Rdn) (x : Dn.Rdn) : Bool :=
  (match look fs (base ++ a.map dirName ++ [dirName x]) with | some .dir => true | _ => false) ||
  (match look fs (base ++ a.map dirName ++ [ldifName x]) with | some (.file _) => true | _ => false)

theorem found_dir {fs : Fs} (hw : WellFormed fs) {base : Path} {a : List Dn.Rdn} {x : Dn.Rdn} (h : found fs base a x = true) :
    look fs (base ++ a.map dirName) = some .dir := by
  unfold found at h
  rw [Bool.or_eq_true] at h
  rcases h with h | h
  · refine hw _ (dirName x) fun e => ?_
    rw [e] at h; cases h
  · refine hw _ (ldifName x) fun e => ?_
    rw [e] at h; cases h

/-- What `_load` makes of what is in the place of the file. -/
def loadAt (env : Env) (fs : Fs) (p : Path) : Except Err Verif.Attrs :=
  match contentAt fs p with
  | .error .noEnt => .ok []
  | .error e => .error e
  | .ok b => (readEntry env.U b).bind fun e =>
    match Server.items env e with
    | .error x => .error (.py x)
    | .ok items => .ok (Tree.buildAttrs env.U items)

/-- One step of the way down. -/
theorem descend_step {env : Env} {fs : Fs} (hw : WellFormed fs) {path : Str} {base : Path} (hb : DirAt fs path base)
    {a : List Dn.Rdn} {x : Dn.Rdn} (hs : NoSlash (a ++ [x])) {c : Handle} (hc : c.path = joinAll path (a.map dirName)) :
    descend env fs c [x] =
      if found fs base a x then
        if Dn.Dn.text (x :: c.dn) = [] then .ok ⟨join c.path (dirName x), x :: c.dn, []⟩
        else (loadAt env fs (base ++ a.map dirName ++ [ldifName x])).map fun as => ⟨join c.path (dirName x), x :: c.dn, as⟩
      else .error (.py .noSuchObject) := by
  have h1 := names_of' (d := a) fun y hy => hs y (by simp [hy])
  have hx := slash_of hs (r := x) (by simp)
  have e1 := stat_look hw hb h1 (isName_dir hx)
  have e2 := stat_look hw hb h1 (isName_ldif hx)
  rw [← hc] at e1 e2
  have hf : (!isDir fs (join c.path (dirName x)) && !isFile fs (join c.path (ldifName x))) = !found fs base a x := by
    unfold isDir isFile found
    rw [e1, e2, Bool.not_or]
    rfl
  rw [descend, hf]
  cases hy : found fs base a x with
  | false => rfl
  | true =>
    simp only [Bool.not_true, Bool.false_eq_true, if_false, if_true]
    have hd := found_dir hw hy
    unfold make
    split
    · rfl
    · rw [load_eq hx]
      have e3 : openRead fs (join c.path (ldifName x)) = contentAt fs (base ++ a.map dirName ++ [ldifName x]) := by
        rw [hc, openRead_below hb h1 (isName_ldif hx), fetch, walk_of_look hw hd]
        rfl
      rw [e3]
      unfold loadAt
      cases contentAt fs (base ++ a.map dirName ++ [ldifName x]) with
      | ok b =>
        simp only [bind, Except.bind, pure, Except.pure]
        cases readEntry env.U b with
        | error e => rfl
        | ok e =>
          simp only
          cases Server.items env e <;> rfl
      | error e => cases e <;> rfl

/-- A lookup depends only on what is found on the way. -/
theorem descend_congr {env : Env} {fs fs' : Fs} (hw : WellFormed fs) (hw' : WellFormed fs') {path : Str} {base : Path}
    (hb : DirAt fs path base) (hb' : DirAt fs' path base) {as : Verif.Attrs} (rs : List Dn.Rdn) (hs : NoSlash rs)
    (h : ∀ a x, a ++ [x] <+: rs → found fs' base a x = found fs base a x ∧
      look fs' (base ++ a.map dirName ++ [ldifName x]) = look fs (base ++ a.map dirName ++ [ldifName x])) :
    descend env fs' ⟨path, [], as⟩ rs = descend env fs ⟨path, [], as⟩ rs := by
  have key : ∀ (k : Nat) (rs : List Dn.Rdn), rs.length = k → NoSlash rs →
      (∀ a x, a ++ [x] <+: rs → found fs' base a x = found fs base a x ∧
        look fs' (base ++ a.map dirName ++ [ldifName x]) = look fs (base ++ a.map dirName ++ [ldifName x])) →
      descend env fs' ⟨path, [], as⟩ rs = descend env fs ⟨path, [], as⟩ rs := by
    intro k
    induction k with
    | zero => intro rs hl _ _; cases List.length_eq_zero_iff.mp hl; rfl
    | succ k ih =>
      intro rs hl hs h
      rcases List.eq_nil_or_concat rs with rfl | ⟨l, r, rfl⟩
      · rfl
      rw [List.concat_eq_append] at *
      rw [descend_append, descend_append, ih l (by simpa using hl) (fun x hx => hs x (by simp [hx]))
        (fun a x hp => h a x (hp.trans (List.prefix_append _ _)))]
      cases hd : descend env fs ⟨path, [], as⟩ l with
      | error e => rfl
      | ok c =>
        obtain ⟨hc, _⟩ := descend_ok hd
        obtain ⟨h1, h2⟩ := h l r ⟨[], by simp⟩
        simp only [Except.bind]
        rw [descend_step hw hb hs hc, descend_step hw' hb' hs hc, h1]
        unfold loadAt contentAt
        rw [h2]
  exact key _ rs rfl hs h

/-- A lookup that succeeds finds something at each step. -/
theorem descend_found {env : Env} {fs : Fs} (hw : WellFormed fs) {path : Str} {base : Path} (hb : DirAt fs path base)
    {as : Verif.Attrs} {rs : List Dn.Rdn} (hs : NoSlash rs) {c : Handle} (hc : descend env fs ⟨path, [], as⟩ rs = .ok c)
    {a : List Dn.Rdn} {x : Dn.Rdn} (hp : a ++ [x] <+: rs) : found fs base a x = true := by
  obtain ⟨t, rfl⟩ := hp
  rw [List.append_assoc, descend_append] at hc
  cases hd : descend env fs ⟨path, [], as⟩ a with
  | error e => rw [hd] at hc; cases hc
  | ok d =>
    rw [hd] at hc
    simp only [Except.bind] at hc
    rw [descend_append] at hc
    rw [descend_step hw hb (fun y hy => hs y (by simp only [List.mem_append] at hy ⊢; exact .inl hy)) (descend_ok hd).1] at hc
    cases hf : found fs base a x with
    | true => rfl
    | false => rw [hf] at hc; cases hc

theorem run_putEntry_ok {fs fs' : Fs} {dir n uuid : Str} {D : Path} {content : Py Bytes} (hd : DirAt fs dir D)
    (hn : '/' ∉ n) (hu : '/' ∉ uuid) (h : run fs (putEntry (join dir n) uuid content) = .ok fs') :
    ∃ b, content = .ok b ∧ look fs' (D ++ [n ++ ".ldif".toList]) = some (.file b) := by
  have hl : IsName (n ++ ".ldif".toList) := isName_suffix hn (by decide) (by decide)
  have ht := isName_tmp hn hu
  have hne : D ++ [n ++ ".ldif".toList] ≠ D ++ [tmpOf n uuid] := ne_ldif_tmp _ _ _ _ _
  unfold putEntry at h
  rw [tmpName_join hn hu, join_append hn (by decide)] at h
  generalize n ++ ".ldif".toList = L at *
  generalize tmpOf n uuid = T at *
  have hT : D ++ [T] ≠ [] := by simp
  have hL : D ++ [L] ≠ [] := by simp
  simp only [run, bind, Except.bind] at h
  cases h1 : apply fs (.create (join dir T)) with
  | error e => rw [h1] at h; cases h
  | ok fs1 =>
    rw [h1] at h
    simp only [apply, resolve_join hd ht, bind, Except.bind] at h1
    split at h1
    · cases h1
    rename_i hnd
    cases h1
    have hk1 := keeps_set (n := .file []) (fun e => hnd e)
    have look1 : ∀ q, look (set fs (D ++ [T]) (.file [])) q = if q = D ++ [T] then some (.file []) else look fs q := look_set hT
    simp only at h
    cases h2 : apply (set fs (D ++ [T]) (.file [])) (.write (join dir T) content) with
    | error e => rw [h2] at h; cases h
    | ok fs2 =>
      rw [h2] at h
      simp only [apply, resolve_join (hd.keeps hk1) ht, bind, Except.bind, look1, if_true] at h2
      cases content with
      | error e => cases h2
      | ok b =>
        simp only [Except.ok.injEq, List.nil_append] at h2
        subst h2
        have hk2 : Keeps fs (set (set fs (D ++ [T]) (.file [])) (D ++ [T]) (.file b)) :=
          hk1.trans (keeps_set (by rw [look1, if_pos rfl]; simp))
        have look2 : ∀ q, look (set (set fs (D ++ [T]) (.file [])) (D ++ [T]) (.file b)) q =
            if q = D ++ [T] then some (.file b) else look fs q := by
          intro q
          rw [look_set hT, look1]
          split <;> rfl
        simp only [apply, resolve_join (hd.keeps hk2) ht, resolve_join (hd.keeps hk2) hl, bind, Except.bind, look2, if_true,
          if_neg hne] at h
        refine ⟨b, rfl, ?_⟩
        cases hx : look fs (D ++ [L]) with
        | none => rw [hx] at h; cases h; rw [look_set hL, if_pos rfl]
        | some x =>
          rw [hx] at h
          cases x with
          | dir => cases h
          | file c => cases h; rw [look_set hL, if_pos rfl]

/-- What `_addChild` does when it succeeds. -/
theorem addChild_ok {env : Env} {fs fs' : Fs} (hw : WellFormed fs) {path : Str} {base : Path} (hb : DirAt fs path base)
    {as : Verif.Attrs} {sup : Dn.Dn} {r : Dn.Rdn} (hs : NoSlash (r :: sup)) {h c : Handle} {attrs : Verif.Attrs} {uuid : Str}
    (hu : '/' ∉ uuid) (hlook : descend env fs ⟨path, [], as⟩ sup.reverse = .ok h)
    (hadd : addChild env fs h r attrs uuid = .ok (fs', c)) :
    WellFormed fs' ∧ look fs' (dirOf base sup) = some .dir ∧
      Between fs fs' (dirOf base sup) r.text uuid (Ldif.toWire env ⟨r :: sup, Tree.buildAttrs env.U attrs⟩) ∧
      (∃ text, Ldif.toWire env ⟨r :: sup, Tree.buildAttrs env.U attrs⟩ = .ok text ∧
        look fs' (dirOf base sup ++ [ldifName r]) = some (.file text)) ∧
      make env fs' (join h.path (dirName r)) (r :: sup) = .ok c ∧
      ∃ cs, children env fs h = .ok cs ∧
        (cs.any fun c => match c.dn with | x :: _ => Dn.Rdn.eq env.U x r | [] => false) = false := by
  obtain ⟨hp, hdn⟩ := descend_ok hlook
  simp only [List.reverse_reverse, List.append_nil] at hp hdn
  have hss : NoSlash sup := fun x hx => hs x (List.mem_cons_of_mem _ hx)
  have hr := slash_of hs (r := r) List.mem_cons_self
  unfold addChild at hadd
  simp only [bind, Except.bind, pure, Except.pure] at hadd
  split at hadd
  · cases hadd
  rename_i cs hcs
  split at hadd
  · cases hadd
  rename_i hany
  rw [hdn] at hadd
  generalize Ldif.toWire env ⟨r :: sup, Tree.buildAttrs env.U attrs⟩ = content at hadd ⊢
  split at hadd
  · cases hadd
  rename_i fs2 hrun
  cases hm : make env fs2 (join h.path (dirName r)) (r :: sup) with
  | error e => rw [hm] at hadd; cases hadd
  | ok c' =>
    rw [hm] at hadd
    simp only [Except.ok.injEq, Prod.mk.injEq] at hadd
    obtain ⟨rfl, rfl⟩ := hadd
    have hw' := wellFormed_stopped hw (stopped_run hrun)
    -- the directory
    have key : ∃ fs1, run fs1 (putEntry (join h.path r.text) uuid content) = .ok fs2 ∧ WellFormed fs1 ∧ Keeps fs fs1 ∧
        (∀ q, q ≠ dirOf base sup → look fs1 q = look fs q) ∧
        (look fs1 (dirOf base sup) = look fs (dirOf base sup) ∨ look fs (dirOf base sup) = none ∧ look fs1 (dirOf base sup) = some .dir) := by
      by_cases hex : pathExists fs h.path = true
      · rw [if_pos hex] at hrun
        exact ⟨fs, hrun, hw, fun _ h => h, fun _ _ => rfl, .inl rfl⟩
      · rw [if_neg hex] at hrun
        simp only [List.singleton_append, run, bind, Except.bind] at hrun
        cases hmk : apply fs (.mkdir h.path false) with
        | error e => rw [hmk] at hrun; cases hrun
        | ok fs1 =>
          rw [hmk] at hrun
          have hw1 := wellFormed_apply hw hmk
          cases sup with
          | nil =>
            refine absurd ?_ hex
            rw [hp]
            simp only [List.reverse_nil, List.map_nil, joinAll, List.foldl_nil, pathExists, stat, hb.path, hb.dir]
            rfl
          | cons p up =>
            have hpp := isName_dir (slash_of hss (r := p) List.mem_cons_self)
            have hup := names_of (d := up) fun x hx => hss x (List.mem_cons_of_mem _ hx)
            have hres : resolve fs h.path = (walk fs base (up.reverse.map dirName)).map (· ++ [dirName p]) := by
              rw [hp, List.reverse_cons, List.map_append, List.map_singleton, joinAll_append, resolve_below hb hup hpp]
            cases hwk : walk fs base (up.reverse.map dirName) with
            | error e => rw [hwk] at hres; simp only [apply, hres, Except.map, bind, Except.bind] at hmk; cases hmk
            | ok q =>
              rw [hwk, walk_ok hwk] at hres
              have hD : dirOf base (p :: up) = base ++ up.reverse.map dirName ++ [dirName p] := by simp [dirOf]
              rw [hD]
              simp only [apply, hres, Except.map, bind, Except.bind] at hmk
              cases hl : look fs (base ++ up.reverse.map dirName ++ [dirName p]) with
              | some x => rw [hl] at hmk; cases hmk
              | none =>
                rw [hl] at hmk
                simp only [Except.ok.injEq] at hmk
                subst hmk
                refine ⟨_, hrun, hw1, keeps_set (by rw [hl]; simp), fun q hq => ?_, .inr ⟨rfl, ?_⟩⟩
                · rw [look_set (by simp), if_neg hq]
                · rw [look_set (by simp), if_pos rfl]
    obtain ⟨fs1, hrun1, hw1, hk1, hother, hdir⟩ := key
    have hb1 := hb.keeps hk1
    have hD : DirAt fs1 h.path (dirOf base sup) := by
      cases hwk : walk fs1 base (sup.reverse.map dirName) with
      | ok q =>
        have := resolve_joinAll hb1 (names_of hss) hwk
        rw [← hp, walk_ok hwk] at this
        exact this
      | error e =>
        exfalso
        have hres : resolve fs1 (tmpName (join h.path r.text) uuid) = .error e := by
          rw [tmpName_join hr hu, hp, resolve_below hb1 (names_of hss) (isName_tmp hr hu), hwk]
          rfl
        simp only [putEntry, run, apply, hres, bind, Except.bind] at hrun1
        cases hrun1
    obtain ⟨h1, h2, h3⟩ := stopped_putEntry hD hr hu (stopped_run hrun1)
    obtain ⟨text, h4, h5⟩ := run_putEntry_ok hD hr hu hrun1
    refine ⟨hw', h3 _ hD.dir, ⟨fun q q1 q2 q3 => by rw [h1 q q1 q2, hother q q3], ?_, ?_, hk1.trans h3⟩, ⟨text, h4, h5⟩, hm, cs, hcs, Bool.eq_false_iff.mpr hany⟩
    · rw [h1 _ (append_ne_self _ _) (append_ne_self _ _)]; exact hdir
    · rw [hother _ (append_ne_self _ _).symm] at h2; exact h2

/-- The children are those of the names. -/
theorem mem_children {env : Env} {fs : Fs} {h : Handle} {bs : List Str} {cs : List Handle} (hc : childList env fs h bs = .ok cs) :
    (∀ c ∈ cs, ∃ b ∈ bs, child env fs h b = .ok c) ∧ ∀ b ∈ bs, ∃ c ∈ cs, child env fs h b = .ok c := by
  induction bs generalizing cs with
  | nil => cases hc; simp
  | cons b bs ih =>
    simp only [childList, bind, Except.bind, pure, Except.pure] at hc
    cases h1 : child env fs h b with
    | error e => rw [h1] at hc; cases hc
    | ok c =>
      rw [h1] at hc
      cases h2 : childList env fs h bs with
      | error e => rw [h2] at hc; cases hc
      | ok cs' =>
        rw [h2] at hc
        cases hc
        obtain ⟨i1, i2⟩ := ih h2
        constructor
        · intro x hx
          rcases List.mem_cons.mp hx with rfl | hx
          · exact ⟨b, by simp, h1⟩
          · obtain ⟨b', hb', h3⟩ := i1 x hx; exact ⟨b', by simp [hb'], h3⟩
        · intro x hx
          rcases List.mem_cons.mp hx with rfl | hx
          · exact ⟨c, by simp, h1⟩
          · obtain ⟨c', hc', h3⟩ := i2 x hx; exact ⟨c', by simp [hc'], h3⟩

theorem children_names {env : Env} {fs : Fs} {h : Handle} {cs : List Handle} (hc : children env fs h = .ok cs) :
    childList env fs h (childNames fs h.path) = .ok cs := by
  unfold children at hc
  unfold childNames
  cases hl : listDir fs h.path with
  | ok names => rw [hl] at hc; exact hc
  | error e => rw [hl] at hc; cases e <;> cases hc; rfl

theorem child_ok {env : Env} {fs : Fs} {h c : Handle} {b : Str} (hc : child env fs h b = .ok c) :
    ∃ s, Dn.Rdn.parse env.U b = .ok s ∧ c.path = join h.path (b ++ ".dir".toList) ∧ c.dn = s :: h.dn := by
  simp only [child] at hc
  cases hp : Dn.Rdn.parse env.U b with
  | error e => rw [hp] at hc; cases hc
  | ok s =>
    rw [hp] at hc
    obtain ⟨h1, h2⟩ := make_dn hc
    exact ⟨s, rfl, h1, h2⟩

end Verif.LdifTree
