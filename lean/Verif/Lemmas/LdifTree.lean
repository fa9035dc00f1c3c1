import Verif.Spec.LdifTree
import Verif.Lemmas.LdifEntry
/-
The file system and the names of the files of an LDIF tree.
-/
namespace Verif.LdifTree
open Verif.Spec
open Verif.Server (Env)

/-! The map. -/

theorem look_root (fs : Fs) : look fs [] = some .dir := rfl

theorem look_set {fs : Fs} {p : Path} {n : Node} (hp : p ≠ []) (q : Path) :
    look (set fs p n) q = if q = p then some n else look fs q := by
  unfold look set
  by_cases h : q = []
  · subst h
    rw [if_pos rfl, if_neg (fun h => hp h.symm), if_pos rfl]
  · rw [if_neg h, if_neg h]
    by_cases h2 : q = p
    · subst h2; simp
    · rw [if_neg h2, List.find?_cons]
      simp only [show decide ((p, n).1 = q) = false by simpa using fun h => h2 h.symm]
      congr 1
      induction fs with
      | nil => rfl
      | cons e fs ih =>
        by_cases he : e.1 = p
        · rw [List.filter_cons_of_neg (by simpa using he), ih, List.find?_cons]
          simp [show e.1 ≠ q from fun h => h2 (h.symm.trans he)]
        · rw [List.filter_cons_of_pos (by simpa using he), List.find?_cons, List.find?_cons, ih]

theorem look_erase {fs : Fs} {p : Path} (hp : p ≠ []) (q : Path) :
    look (erase fs p) q = if q = p then none else look fs q := by
  unfold look erase
  by_cases h : q = []
  · subst h
    rw [if_pos rfl, if_neg (fun h => hp h.symm), if_pos rfl]
  · rw [if_neg h, if_neg h]
    by_cases h2 : q = p
    · subst h2
      simp only [if_true, Option.map_eq_none_iff, List.find?_eq_none, List.mem_filter]
      rintro x ⟨_, hx⟩
      simpa using hx
    · rw [if_neg h2]
      congr 1
      induction fs with
      | nil => rfl
      | cons e fs ih =>
        by_cases he : e.1 = p
        · rw [List.filter_cons_of_neg (by simpa using he), ih, List.find?_cons]
          simp [show e.1 ≠ q from fun h => h2 (h.symm.trans he)]
        · rw [List.filter_cons_of_pos (by simpa using he), List.find?_cons, List.find?_cons, ih]

/-! Components. -/

theorem splitSlash_ne (s : Str) : splitSlash s ≠ [] := by
  cases s with
  | nil => simp [splitSlash]
  | cons c s =>
    unfold splitSlash
    split
    · simp
    · split <;> simp

theorem splitSlash_append (a b : Str) : splitSlash (a ++ '/' :: b) = splitSlash a ++ splitSlash b := by
  induction a with
  | nil => simp [splitSlash]
  | cons c a ih =>
    rw [List.cons_append, splitSlash, splitSlash]
    by_cases h : c = '/'
    · rw [if_pos h, if_pos h, ih]; rfl
    · rw [if_neg h, if_neg h, ih]
      cases e : splitSlash a with
      | nil => exact absurd e (splitSlash_ne a)
      | cons p ps => rfl

theorem splitSlash_plain {s : Str} (h : '/' ∉ s) : splitSlash s = [s] := by
  induction s with
  | nil => rfl
  | cons c s ih =>
    rw [splitSlash, if_neg (fun e => h (by simp [e])), ih (fun e => h (List.mem_cons_of_mem _ e))]

/-- A name that is a component of its own. -/
structure IsName (n : Str) : Prop where
  slash : '/' ∉ n
  empty : n ≠ []
  dot : n ≠ ['.']
  dots : n ≠ ['.', '.']

theorem parts_join {a n : Str} (h : IsName n) : parts (join a n) = parts a ++ [n] := by
  have hn : (splitSlash n).filter (fun c => c ≠ [] ∧ c ≠ ['.']) = [n] := by
    rw [splitSlash_plain h.slash]
    simp [h.empty, h.dot]
  unfold join
  have h1 : ¬ (['/'].isPrefixOf n = true) := by
    cases n with
    | nil => simp
    | cons c n =>
      simp only [List.isPrefixOf, List.isPrefixOf_nil_left, Bool.and_true, beq_iff_eq]
      exact fun e => h.slash (by simp [← e])
  rw [if_neg h1]
  split
  · rename_i h2
    rcases h2 with rfl | h2
    · simpa [parts, splitSlash] using hn
    · obtain ⟨a, rfl⟩ : ∃ b, a = b ++ ['/'] := by
        refine ⟨a.dropLast, ?_⟩
        have := List.dropLast_concat_getLast (l := a) (by rintro rfl; cases h2)
        rw [List.getLast?_eq_some_getLast (by rintro rfl; cases h2)] at h2
        rw [← this, Option.some.inj h2]; simp
      rw [List.append_assoc, List.singleton_append, parts, splitSlash_append, List.filter_append, hn, parts,
        show a ++ ['/'] = a ++ '/' :: [] from rfl, splitSlash_append, List.filter_append]
      simp [splitSlash]
  · rw [parts, splitSlash_append, List.filter_append, hn, parts]

theorem parts_joinAll {a : Str} {l : List Str} (h : ∀ n ∈ l, IsName n) : parts (joinAll a l) = parts a ++ l := by
  induction l generalizing a with
  | nil => simp [joinAll]
  | cons n l ih =>
    have := ih (a := join a n) fun m hm => h m (List.mem_cons_of_mem _ hm)
    rw [joinAll, List.foldl_cons] at *
    rw [this, parts_join (h n List.mem_cons_self)]
    simp

/-! Walking down. -/

/-- Go down a list of directories. -/
def walk (fs : Fs) (p : Path) : List Str → Except Err Path
  | [] => .ok p
  | c :: cs =>
    match look fs (p ++ [c]) with
    | some .dir => walk fs (p ++ [c]) cs
    | some (.file _) => .error .notDir
    | none => .error .noEnt

theorem locate_walk {fs : Fs} {p : Path} {ds : List Str} {n : Str} (hd : ∀ d ∈ ds, IsName d) (hn : IsName n) :
    locate fs p (ds ++ [n]) = (walk fs p ds).map (· ++ [n]) := by
  induction ds generalizing p with
  | nil => simp [locate, walk, Except.map, hn.dots]
  | cons d ds ih =>
    have hd' := hd d List.mem_cons_self
    obtain ⟨x, xs, hx⟩ : ∃ x xs, ds ++ [n] = x :: xs := by
      cases ds with
      | nil => exact ⟨n, [], rfl⟩
      | cons y ys => exact ⟨y, ys ++ [n], rfl⟩
    rw [List.cons_append, hx, locate, if_neg hd'.dots, ← hx]
    · rw [walk]
      split <;> rename_i h <;> simp only [h]
      · exact ih fun d h => hd d (List.mem_cons_of_mem _ h)
      · rfl
      · rfl
    · simp

theorem locate_append {fs : Fs} {p q : Path} {a b : List Str} (h : locate fs p a = .ok q) (hq : look fs q = some .dir)
    (hb : b ≠ []) : locate fs p (a ++ b) = locate fs q b := by
  induction a generalizing p with
  | nil => simp only [locate, Except.ok.injEq] at h; subst h; rfl
  | cons c a ih =>
    obtain ⟨x, xs, rfl⟩ : ∃ x xs, b = x :: xs := by
      cases b with
      | nil => exact absurd rfl hb
      | cons x xs => exact ⟨x, xs, rfl⟩
    cases a with
    | nil =>
      simp only [locate, Except.ok.injEq] at h
      rw [List.cons_append, List.nil_append, locate]
      · split at h
        · rename_i h2; rw [if_pos h2, h]
        · rename_i h2; rw [if_neg h2]; subst h; rw [hq]
      · simp
    | cons c' a =>
      rw [List.cons_append, List.cons_append, locate]
      · rw [locate] at h
        · split at h
          · rename_i h2; rw [if_pos h2]; exact ih h
          · rename_i h2
            rw [if_neg h2]
            split at h <;> rename_i h3
            · exact ih h
            · cases h
            · cases h
        · simp
      · simp

/-- Where a name below a directory of the tree resolves to. -/
theorem resolve_below {fs : Fs} {path : Str} {base : Path} (hb : DirAt fs path base) {ds : List Str} {n : Str}
    (hd : ∀ d ∈ ds, IsName d) (hn : IsName n) :
    resolve fs (join (joinAll path ds) n) = (walk fs base ds).map (· ++ [n]) := by
  unfold resolve
  rw [parts_join hn, parts_joinAll hd, List.append_assoc, locate_append hb.path hb.dir (by simp), locate_walk hd hn]

theorem walk_ok {fs : Fs} {p q : Path} {ds : List Str} (h : walk fs p ds = .ok q) : q = p ++ ds := by
  induction ds generalizing p with
  | nil => simp only [walk, Except.ok.injEq] at h; simp [h]
  | cons d ds ih =>
    rw [walk] at h
    split at h
    · rw [ih h]; simp
    · cases h
    · cases h

theorem walk_dir {fs : Fs} {p q : Path} {ds : List Str} (h : walk fs p ds = .ok q) (hp : look fs p = some .dir) :
    look fs q = some .dir := by
  induction ds generalizing p with
  | nil => simp only [walk, Except.ok.injEq] at h; rw [← h]; exact hp
  | cons d ds ih =>
    rw [walk] at h
    split at h
    · rename_i h2; exact ih h h2
    · cases h
    · cases h

theorem walk_append {fs : Fs} {p : Path} {a b : List Str} :
    walk fs p (a ++ b) = (walk fs p a).bind fun q => walk fs q b := by
  induction a generalizing p with
  | nil => rfl
  | cons d a ih =>
    rw [List.cons_append, walk, walk]
    split
    · exact ih
    · rfl
    · rfl

/-- In a well-formed file system, what is there is reached. -/
theorem walk_of_look {fs : Fs} (hw : WellFormed fs) {p : Path} {ds : List Str} (h : look fs (p ++ ds) = some .dir) :
    walk fs p ds = .ok (p ++ ds) := by
  induction ds generalizing p with
  | nil => simp [walk]
  | cons d ds ih =>
    have key : ∀ (l : List Str) (q : Path), look fs (q ++ l) ≠ none → l ≠ [] → look fs q = some .dir := by
      intro l
      induction l with
      | nil => intro q _ h; exact absurd rfl h
      | cons x l ihl =>
        intro q h1 _
        cases l with
        | nil => exact hw _ _ h1
        | cons y l =>
          have h2 := ihl (q ++ [x]) (by simpa using h1) (by simp)
          exact hw _ _ (by rw [h2]; simp)
    have h' : p ++ d :: ds = (p ++ [d]) ++ ds := by simp
    rw [h'] at h
    have h1 : look fs (p ++ [d]) = some .dir := by
      cases ds with
      | nil => simpa using h
      | cons x ds => exact key (x :: ds) _ (by rw [h]; simp) (by simp)
    rw [walk, h1, h', ]
    exact ih h

/-! Names of files. -/

theorem hexUpper_slash {n : Nat} (h : n < 16) : hexUpper n ≠ '/' := by
  have : ∀ m : Fin 16, hexUpper m.val ≠ '/' := by decide
  exact this ⟨n, h⟩

theorem escapeChar_slash {c : Char} (h : c ≠ '/') : '/' ∉ Dn.escapeChar c := by
  unfold Dn.escapeChar
  split
  · simpa using fun e : '/' = c => h e.symm
  · split
    · rename_i h2
      simp [(hexUpper_slash (n := c.toNat / 16) (by omega)).symm, (hexUpper_slash (n := c.toNat % 16) (by omega)).symm]
    · simpa using fun e : '/' = c => h e.symm

theorem escapeRest_slash {s : Str} (h : '/' ∉ s) : '/' ∉ Dn.escapeRest s := by
  have hf : ∀ t : Str, '/' ∉ t → '/' ∉ t.flatMap Dn.escapeChar := by
    intro t ht hm
    obtain ⟨c, hc, hm⟩ := List.mem_flatMap.mp hm
    exact escapeChar_slash (fun e => ht (e ▸ hc)) hm
  unfold Dn.escapeRest
  split
  · rename_i c hc
    have hc' : c ∈ s := List.mem_of_getLast? hc
    split
    · intro hm
      rcases List.mem_append.mp hm with hm | hm
      · exact hf _ (fun e => h (List.dropLast_subset _ e)) hm
      · simp only [List.mem_cons, List.not_mem_nil, or_false] at hm
        rcases hm with hm | hm
        · exact absurd hm (by decide)
        · exact h (hm ▸ hc')
    · exact hf _ h
  · simp

theorem escape_slash {s : Str} (h : '/' ∉ s) : '/' ∉ Dn.escape s := by
  unfold Dn.escape
  split
  · simp
  · rename_i c rest
    split
    · intro hm
      simp only [List.mem_cons] at hm
      rcases hm with hm | hm | hm
      · exact absurd hm (by decide)
      · exact h (hm ▸ List.mem_cons_self)
      · exact escapeRest_slash (fun e => h (List.mem_cons_of_mem _ e)) hm
    · exact escapeRest_slash h

theorem rdn_slash {r : Dn.Rdn} (h : ∀ a ∈ r, '/' ∉ a.attributeType ∧ '/' ∉ a.value) : '/' ∉ r.text := by
  have hj : ∀ l : List Str, (∀ s ∈ l, '/' ∉ s) → '/' ∉ joinWith ['+'] l := by
    intro l hl
    fun_induction joinWith ['+'] l with
    | case1 => simp
    | case2 x => exact hl x (by simp)
    | case3 x xs hx ih =>
      intro hm
      rcases List.mem_append.mp hm with hm | hm
      · rcases List.mem_append.mp hm with hm | hm
        · exact hl x (by simp) hm
        · exact absurd hm (by decide)
      · exact ih (fun s hs => hl s (List.mem_cons_of_mem _ hs)) hm
  refine hj _ fun s hs => ?_
  obtain ⟨a, ha, rfl⟩ := List.mem_map.mp hs
  intro hm
  rcases List.mem_append.mp hm with hm | hm
  · exact escape_slash (h a ha).1 hm
  · rcases List.mem_cons.mp hm with hm | hm
    · exact absurd hm (by decide)
    · exact escape_slash (h a ha).2 hm

theorem isName_suffix {t s : Str} (ht : '/' ∉ t) (hs : '/' ∉ s) (hl : 3 ≤ s.length) : IsName (t ++ s) := by
  have hlen : ∀ u : Str, u.length < 3 → t ++ s ≠ u := by
    rintro u hu rfl
    rw [List.length_append] at hu
    omega
  exact ⟨by simp [ht, hs], hlen _ (by decide), hlen _ (by decide), hlen _ (by decide)⟩

theorem isName_dir {r : Dn.Rdn} (h : '/' ∉ r.text) : IsName (dirName r) := isName_suffix h (by decide) (by decide)
theorem isName_ldif {r : Dn.Rdn} (h : '/' ∉ r.text) : IsName (ldifName r) := isName_suffix h (by decide) (by decide)

/-- Endings of different texts. -/
theorem suffix_ne {a b s t : Str} (hl : s.getLast? ≠ t.getLast?) (hs : s ≠ []) (ht : t ≠ []) : a ++ s ≠ b ++ t := by
  intro h
  apply hl
  have h2 := congrArg List.getLast? h
  rw [List.getLast?_append, List.getLast?_append] at h2
  cases s with
  | nil => exact absurd rfl hs
  | cons x xs =>
    cases t with
    | nil => exact absurd rfl ht
    | cons y ys =>
      rw [List.getLast?_eq_some_getLast (l := x :: xs) (by simp), List.getLast?_eq_some_getLast (l := y :: ys) (by simp)] at *
      simpa using h2

theorem dir_ne_ldif (a b : Str) : a ++ ".dir".toList ≠ b ++ ".ldif".toList := suffix_ne (by decide) (by decide) (by decide)
theorem dir_ne_tmp (a b : Str) : a ++ ".dir".toList ≠ b ++ ".tmp".toList := suffix_ne (by decide) (by decide) (by decide)
theorem ldif_ne_tmp (a b : Str) : a ++ ".ldif".toList ≠ b ++ ".tmp".toList := suffix_ne (by decide) (by decide) (by decide)

end Verif.LdifTree
