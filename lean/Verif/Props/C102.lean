import Verif.Lemmas.Equality
import Verif.Spec.Equality
import Verif.Props.C67
/-
C102  When two objects of the library compare equal.

Messages and filters that are neither `and` nor `or` are equal exactly if they are the same (`messages_partial`, `item`).  Sets of such
filters are equal exactly if they have the same parts in any order (`flat`).  For all filters `==` is an equivalence (`reflexive`,
`symmetric`, `transitive`), and filters that compare equal are the same up to order, except that `and` is not told from `or`
(`sound`); without that mistake they hold of the same entries (`means_partial`).

Where the property fails: an `and` equals the `or` of the same parts (`and_or`, `and_or_differ`); order counts in sets within sets and
under a negation (`nested`); `!=` is not the negation of `==` (`both_equal_and_not`); comparing a set with a presence test or a
negation may raise `TypeError` (`raises`), by which the server refuses harmless searches (`refused`, `refused_search`); a plain
sequence equals sets that it should not (`not_transitive`); a set has no hash (`no_hash`).
-/
namespace Verif.C102
open Verif.Ldap Verif.Spec Verif.Equality
open Verif.Server (Env Luck State Served ascii)

theorem buildAll_map : ∀ fs : List Filter, Filter.buildAll fs = fs.map Filter.build
  | [] => rfl
  | f :: fs => by simp [Filter.buildAll, buildAll_map fs]

/-! ### Encodings tell filters apart -/

theorem build_inj {f g : Filter} (h : f.build = g.build) : f = g := by
  have := readFilter_build f
  rw [h, readFilter_build] at this
  exact (Option.some.inj this).symm

theorem wire_inj {f g : Filter} {w : Bytes} (hf : toWire f.build = .ok w) (hg : toWire g.build = .ok w) : f = g := by
  have h1 := (C06.filter_roundtrip f w [] hf).1
  have h2 := (C06.filter_roundtrip g w [] hg).1
  rw [h1] at h2
  simp only [Except.ok.injEq, Prod.mk.injEq, Option.some.injEq, and_true] at h2
  exact build_inj h2

/-- Parts of a filter that can be written can be written. -/
theorem written_part {f : Filter} {fs : List Filter} (hp : f.parts = some fs) (h : Written f) :
    ∃ c, toWireList (fs.map Filter.build) = .ok c ∧ ∀ w, toWire f.build = .ok w → ∃ t, tlv t c = .ok w := by
  obtain ⟨w, hw⟩ := h
  cases f <;> simp only [Filter.parts, Option.some.injEq, reduceCtorEq] at hp <;> subst hp <;>
  · simp only [Filter.build, toWire, buildAll_map] at hw ⊢
    obtain ⟨c, h1, h2⟩ := bind_ok hw
    refine ⟨c, h1, fun w' h' => ?_⟩
    rw [h1] at h'
    exact ⟨_, h'⟩

theorem written_mem {f g : Filter} {fs : List Filter} (hp : f.parts = some fs) (h : Written f) (hg : g ∈ fs) : Written g := by
  obtain ⟨c, hc, _⟩ := written_part hp h
  exact toWireList_mem hc _ (List.mem_map.mpr ⟨g, hg, rfl⟩)

/-- The parts in the order in which they are compared. -/
structure Ordered (fs fs' : List Filter) : Prop where
  sorted : sorted (fs.map Filter.build) = .ok (fs'.map Filter.build)
  perm : fs'.Perm fs

theorem ordered {fs : List Filter} (h : ∀ f ∈ fs, Written f) : ∃ fs', Ordered fs fs' := by
  obtain ⟨r, hr⟩ := sorted_total (l := fs.map Filter.build) (by
    intro x hx
    obtain ⟨f, hf, rfl⟩ := List.mem_map.mp hx
    exact h f hf)
  have hp := (sorted_ok hr).1
  have hback : ∀ l : List Filter, (l.map Filter.build).filterMap readFilter = l := by
    intro l
    induction l with
    | nil => rfl
    | cons f l ih => simp [readFilter_build, ih]
  have hmap : ∀ r : List Obj, (∀ x ∈ r, ∃ f : Filter, x = f.build) → (r.filterMap readFilter).map Filter.build = r := by
    intro r
    induction r with
    | nil => intro _; rfl
    | cons x r ih =>
      intro h
      obtain ⟨f, rfl⟩ := h x List.mem_cons_self
      simp [readFilter_build, ih fun y hy => h y (List.mem_cons_of_mem _ hy)]
  refine ⟨r.filterMap readFilter, ⟨?_, ?_⟩⟩
  · rw [hmap r fun x hx => ?_]
    · exact hr
    · obtain ⟨f, _, rfl⟩ := List.mem_map.mp (hp.subset hx)
      exact ⟨f, rfl⟩
  · have := hp.filterMap readFilter
    rwa [hback] at this

/-! ### The comparison, case by case -/

/-- `f == g` is true. -/
def Equal (f g : Filter) : Prop := eq f.build g.build = .ok true

theorem filterSet_build (f : Filter) : filterSet f.build = f.parts.map (·.map Filter.build) := by
  cases f <;> simp [Filter.build, filterSet, Filter.parts, buildAll_map]

theorem isBase_build (f : Filter) : isBase f.build = false := by
  cases f <;> simp [Filter.build, isBase]

theorem eq_item {f g : Filter} (hp : f.parts = none) : eq f.build g.build = wireEq f.build g.build := by
  rw [eq_step, filterSet_build, hp]
  simp only [Option.map_none, isBase_build, Bool.false_eq_true, if_false]
  cases filterSet g.build <;> rfl

/-- A filter that is no set equals itself only. -/
theorem item_decided {f g : Filter} (hp : f.parts = none) (hf : Written f) (hg : Written g) :
    ∃ b, eq f.build g.build = .ok b ∧ (b = true ↔ f = g) := by
  obtain ⟨v, hv⟩ := hf
  obtain ⟨w, hw⟩ := hg
  refine ⟨v == w, ?_, ?_⟩
  · rw [eq_item hp]
    simp only [wireEq, hv, hw, bind, Except.bind, pure, Except.pure]
  · rw [beq_iff_eq]
    constructor
    · rintro rfl; exact wire_inj hv hw
    · rintro rfl; rw [hv] at hw; exact Except.ok.inj hw

theorem item_iff {f g : Filter} (hp : f.parts = none) (hf : Written f) (hg : Written g) : Equal f g ↔ f = g := by
  obtain ⟨b, h1, h2⟩ := item_decided hp hf hg
  unfold Equal
  rw [h1, ← h2]
  exact ⟨fun h => Except.ok.inj h, fun h => by rw [h]⟩

theorem setEq_true {e : Obj → Obj → Py Bool} {x y : Obj} {data : List Obj} (h : setEq e x data y = .ok true) :
    ∃ v w l items r, toWire x = .ok v ∧ toWire y = .ok w ∧ v.length = w.length ∧ sorted data = .ok l ∧ iter y = .ok items ∧
      sorted items = .ok r ∧ l.length = r.length ∧ listEq e l r = .ok true := by
  obtain ⟨v, hv, h⟩ := bind_ok h
  obtain ⟨w, hw, h⟩ := bind_ok h
  split at h
  · cases h
  rename_i hlen
  obtain ⟨l, hl, h⟩ := bind_ok h
  obtain ⟨items, hi, h⟩ := bind_ok h
  obtain ⟨r, hr, h⟩ := bind_ok h
  unfold lists at h
  split at h
  · rename_i hl'
    exact ⟨v, w, l, items, r, hv, hw, by simpa using hlen, hl, hi, hr, hl', h⟩
  · cases h

/-- What compares equal has encodings of the same length. -/
theorem equal_length {f g : Filter} (h : Equal f g) {v w : Bytes} (hv : toWire f.build = .ok v) (hw : toWire g.build = .ok w) :
    v.length = w.length := by
  cases hp : f.parts with
  | none =>
    have := (item_iff hp ⟨v, hv⟩ ⟨w, hw⟩).mp h
    subst this
    rw [hv] at hw; cases hw; rfl
  | some fs =>
    unfold Equal at h
    rw [eq_step, filterSet_build, hp] at h
    obtain ⟨v', w', _, _, _, h1, h2, h3, _⟩ := setEq_true h
    rw [hv] at h1; rw [hw] at h2
    cases h1; cases h2; exact h3

theorem sorted_nil : sorted [] = .ok [] := rfl

theorem item_iter {g : Filter} (hp : g.parts = none) {items : List Obj} (h : iter g.build = .ok items) : items = [] := by
  cases g <;> simp only [Filter.parts, reduceCtorEq] at hp <;> simp only [Filter.build, iter, Except.ok.injEq, reduceCtorEq] at h <;>
    exact h.symm

/-- An item that has no elements is longer than an empty set. -/
theorem item_long {g : Filter} (hp : g.parts = none) {items : List Obj} (h : iter g.build = .ok items) {w : Bytes}
    (hw : toWire g.build = .ok w) : 3 ≤ w.length := by
  have hoct : ∀ {t : UInt8} {b v : Bytes}, encOct t (.bytes b) = .ok v → 2 ≤ v.length := by
    intro t b v h
    rw [encOct_bytes] at h
    have := tlv_long h; omega
  cases g <;> simp only [Filter.parts, reduceCtorEq] at hp <;> simp only [Filter.build, iter, reduceCtorEq] at h
  case substrings a ps =>
    simp only [Filter.build, toWire] at hw
    obtain ⟨x, h1, hw⟩ := bind_ok hw
    obtain ⟨c, h2, hw⟩ := bind_ok hw
    obtain ⟨d, h3, hw⟩ := bind_ok hw
    have := hoct h1
    have := tlv_long hw
    simp only [List.length_append] at this
    omega
  case ext r t b d =>
    simp only [Filter.build, toWire] at hw
    obtain ⟨x, h1, hw⟩ := bind_ok hw
    obtain ⟨y, h2, hw⟩ := bind_ok hw
    obtain ⟨z, h3, hw⟩ := bind_ok hw
    obtain ⟨u, h4, hw⟩ := bind_ok hw
    have := hoct h3
    have := tlv_long hw
    simp only [List.length_append] at this
    omega
  all_goals
    simp only [Filter.build, toWire, octet] at hw
    obtain ⟨x, h1, hw⟩ := bind_ok hw
    obtain ⟨y, h2, hw⟩ := bind_ok hw
    have := hoct h1
    have := tlv_long hw
    simp only [List.length_append] at this
    omega

/-- A set never equals a filter that is no set. -/
theorem set_item {f g : Filter} {fs : List Filter} (hp : f.parts = some fs) (hq : g.parts = none) : ¬ Equal f g := by
  intro h
  unfold Equal at h
  rw [eq_step, filterSet_build, hp] at h
  obtain ⟨v, w, l, items, r, h1, h2, h3, h4, h5, h6, h7, _⟩ := setEq_true h
  have he := item_iter hq h5
  subst he
  rw [sorted_nil] at h6
  cases h6
  have hl := (sorted_ok h4).1.length_eq
  have hfs : fs = [] := by
    simp only [List.length_map, List.length_nil] at hl h7
    exact List.eq_nil_of_length_eq_zero (by omega)
  subst hfs
  obtain ⟨c, hc, ht⟩ := written_part hp ⟨v, h1⟩
  cases hc
  obtain ⟨t, ht⟩ := ht v h1
  rw [tlv_empty] at ht
  cases ht
  have := item_long hq h5 h2
  simp at h3
  omega

theorem listEq_each {e : Obj → Obj → Py Bool} : ∀ {fs gs : List Filter},
    (fs.length = gs.length ∧ listEq e (fs.map Filter.build) (gs.map Filter.build) = .ok true) ↔
      Each (fun f g => e f.build g.build = .ok true) fs gs
  | [], [] => ⟨fun _ => .nil, fun _ => ⟨rfl, rfl⟩⟩
  | [], _ :: _ => ⟨fun h => by simp at h, nofun⟩
  | _ :: _, [] => ⟨fun h => by simp at h, nofun⟩
  | f :: fs, g :: gs => by
    constructor
    · rintro ⟨h1, h2⟩
      simp only [List.map_cons, listEq] at h2
      obtain ⟨b, h3, h4⟩ := bind_ok h2
      cases b with
      | false => cases h4
      | true => exact .cons h3 (listEq_each.mp ⟨by simpa using h1, h4⟩)
    · rintro (_ | ⟨h1, h2⟩)
      obtain ⟨h3, h4⟩ := listEq_each.mpr h2
      refine ⟨by simp [h3], ?_⟩
      simp only [List.map_cons, listEq, h1, bind, Except.bind, if_true]
      exact h4

/-- Sets are equal if their parts, in order, are equal one by one. -/
theorem set_iff {f g : Filter} {fs gs fs' gs' : List Filter} (hp : f.parts = some fs) (hq : g.parts = some gs) (hf : Written f)
    (hg : Written g) (hfs : Ordered fs fs') (hgs : Ordered gs gs') : Equal f g ↔ Each Equal fs' gs' := by
  have hiter : iter g.build = .ok (gs.map Filter.build) := by
    cases g <;> simp only [Filter.parts, Option.some.injEq, reduceCtorEq] at hq <;> subst hq <;> simp [Filter.build, iter, buildAll_map]
  have hstep : eq f.build g.build = setEq eq f.build (fs.map Filter.build) g.build := by
    rw [eq_step, filterSet_build, hp]; rfl
  constructor
  · intro h
    unfold Equal at h
    rw [hstep] at h
    obtain ⟨v, w, l, items, r, h1, h2, h3, h4, h5, h6, h7, h8⟩ := setEq_true h
    rw [hiter] at h5; cases h5
    rw [hfs.sorted] at h4; cases h4
    rw [hgs.sorted] at h6; cases h6
    exact listEq_each.mp ⟨by simpa using h7, h8⟩
  · intro h
    obtain ⟨c, hc, ht⟩ := written_part hp hf
    obtain ⟨d, hd, hu⟩ := written_part hq hg
    obtain ⟨v, hv⟩ := hf
    obtain ⟨w, hw⟩ := hg
    obtain ⟨t, ht⟩ := ht v hv
    obtain ⟨u, hu⟩ := hu w hw
    obtain ⟨c', hc', hcl⟩ := toWireList_perm (hfs.perm.map Filter.build).symm hc
    obtain ⟨d', hd', hdl⟩ := toWireList_perm (hgs.perm.map Filter.build).symm hd
    have hlen : c'.length = d'.length := by
      refine toWireList_length hc' hd' ?_
      clear hfs hgs hc' hd' hcl hdl
      induction h with
      | nil => exact .nil
      | cons h1 _ ih => exact .cons (fun _ _ h2 h3 => equal_length h1 h2 h3) ih
    have hvw := tlv_length ht hu (by omega)
    obtain ⟨h1, h2⟩ := listEq_each.mpr h
    unfold Equal
    rw [hstep]
    simp only [setEq, hv, hw, bind, Except.bind, hvw, ne_eq, not_true_eq_false, if_false, hfs.sorted, hgs.sorted, hiter, lists,
      List.length_map, h1, if_true, h2]

/-! ### An equivalence -/

/-- `(a=*)`, `(b=*)` and so on -/
def has (c : UInt8) : Filter := .present [c]

/-- `(&(a=*)(|(b=*)(!(c=*))))`, and twice the same in another order, the last with an `or` that lists its parts otherwise. -/
def first : Filter := .and [has 97, .or [has 98, .not (has 99)]]
def second : Filter := .and [.or [has 98, .not (has 99)], has 97]
def third : Filter := .and [.or [.not (has 99), has 98], has 97]

theorem first_written : Written first := ⟨[160, 13, 135, 1, 97, 161, 8, 135, 1, 98, 162, 3, 135, 1, 99], by decide +kernel⟩
theorem second_written : Written second := ⟨[160, 13, 161, 8, 135, 1, 98, 162, 3, 135, 1, 99, 135, 1, 97], by decide +kernel⟩
theorem third_written : Written third := ⟨[160, 13, 161, 8, 162, 3, 135, 1, 99, 135, 1, 98, 135, 1, 97], by decide +kernel⟩

theorem part_smaller {f g : Filter} {fs : List Filter} (hp : f.parts = some fs) (hg : g ∈ fs) : sizeOf g < sizeOf f := by
  have := List.sizeOf_lt_of_mem hg
  cases f <;> simp only [Filter.parts, Option.some.injEq, reduceCtorEq] at hp <;> subst hp <;> simp <;> omega

/-- **Reflexive.**  Every filter that can be written equals itself, also if it is compared part by part. -/
theorem reflexive (f : Filter) (hf : Written f) : Equal f f := by
  cases hp : f.parts with
  | none => exact (item_iff hp hf hf).mpr rfl
  | some fs =>
    obtain ⟨fs', ho⟩ := ordered fun g hg => written_mem hp hf hg
    rw [set_iff hp hp hf hf ho ho]
    have : ∀ l : List Filter, (∀ g ∈ l, g ∈ fs) → Each Equal l l := by
      intro l
      induction l with
      | nil => intro _; exact .nil
      | cons g l ih =>
        intro h
        exact .cons (reflexive g (written_mem hp hf (h g List.mem_cons_self))) (ih fun x hx => h x (List.mem_cons_of_mem _ hx))
    exact this fs' fun g hg => ho.perm.subset hg
termination_by sizeOf f
decreasing_by exact part_smaller hp (h g List.mem_cons_self)

example : Equal first first := reflexive first first_written

theorem equal_parts {f g : Filter} {fs : List Filter} (hp : f.parts = some fs) (h : Equal f g) : ∃ gs, g.parts = some gs := by
  cases hq : g.parts with
  | none => exact absurd h (set_item hp hq)
  | some gs => exact ⟨gs, rfl⟩

/-- **Symmetric.** -/
theorem symmetric (f g : Filter) (hf : Written f) (hg : Written g) (h : Equal f g) : Equal g f := by
  cases hp : f.parts with
  | none =>
    have := (item_iff hp hf hg).mp h
    subst this
    exact h
  | some fs =>
    obtain ⟨gs, hq⟩ := equal_parts hp h
    obtain ⟨fs', ho⟩ := ordered fun x hx => written_mem hp hf hx
    obtain ⟨gs', ho'⟩ := ordered fun x hx => written_mem hq hg hx
    rw [set_iff hp hq hf hg ho ho'] at h
    rw [set_iff hq hp hg hf ho' ho]
    have : ∀ l r : List Filter, (∀ x ∈ l, x ∈ fs) → (∀ x ∈ r, x ∈ gs) → Each Equal l r → Each Equal r l := by
      intro l
      induction l with
      | nil => intro r _ _ h; cases h; exact .nil
      | cons x l ih =>
        intro r h1 h2 h
        cases h with
        | cons h3 h4 =>
          rename_i y r
          exact .cons (symmetric x y (written_mem hp hf (h1 x List.mem_cons_self)) (written_mem hq hg (h2 y List.mem_cons_self)) h3)
            (ih r (fun z hz => h1 z (List.mem_cons_of_mem _ hz)) (fun z hz => h2 z (List.mem_cons_of_mem _ hz)) h4)
    exact this fs' gs' (fun x hx => ho.perm.subset hx) (fun x hx => ho'.perm.subset hx) h
termination_by sizeOf f
decreasing_by exact part_smaller hp (h1 x List.mem_cons_self)

example : Equal first third ∧ Equal third first :=
  ⟨by unfold Equal; decide +kernel, symmetric first third first_written third_written (by unfold Equal; decide +kernel)⟩

/-- **Transitive.** -/
theorem transitive (f g k : Filter) (hf : Written f) (hg : Written g) (hk : Written k) (h : Equal f g) (h' : Equal g k) : Equal f k := by
  cases hp : f.parts with
  | none =>
    have := (item_iff hp hf hg).mp h
    subst this
    exact h'
  | some fs =>
    obtain ⟨gs, hq⟩ := equal_parts hp h
    obtain ⟨ks, hr⟩ := equal_parts hq h'
    obtain ⟨fs', ho⟩ := ordered fun x hx => written_mem hp hf hx
    obtain ⟨gs', ho'⟩ := ordered fun x hx => written_mem hq hg hx
    obtain ⟨ks', ho''⟩ := ordered fun x hx => written_mem hr hk hx
    rw [set_iff hp hq hf hg ho ho'] at h
    rw [set_iff hq hr hg hk ho' ho''] at h'
    rw [set_iff hp hr hf hk ho ho'']
    have : ∀ a b c : List Filter, (∀ x ∈ a, x ∈ fs) → (∀ x ∈ b, x ∈ gs) → (∀ x ∈ c, x ∈ ks) → Each Equal a b → Each Equal b c →
        Each Equal a c := by
      intro a
      induction a with
      | nil => intro b c _ _ _ h h'; cases h; cases h'; exact .nil
      | cons x a ih =>
        intro b c h1 h2 h3 h h'
        cases h with
        | cons h4 h5 =>
          rename_i y b
          cases h' with
          | cons h6 h7 =>
            rename_i z c
            exact .cons (transitive x y z (written_mem hp hf (h1 x List.mem_cons_self)) (written_mem hq hg (h2 y List.mem_cons_self))
                (written_mem hr hk (h3 z List.mem_cons_self)) h4 h6)
              (ih b c (fun u hu => h1 u (List.mem_cons_of_mem _ hu)) (fun u hu => h2 u (List.mem_cons_of_mem _ hu))
                (fun u hu => h3 u (List.mem_cons_of_mem _ hu)) h5 h7)
    exact this fs' gs' ks' (fun x hx => ho.perm.subset hx) (fun x hx => ho'.perm.subset hx) (fun x hx => ho''.perm.subset hx) h h'
termination_by sizeOf f
decreasing_by exact part_smaller hp (h1 x List.mem_cons_self)

example : Equal first second ∧ Equal second third ∧ Equal first third :=
  ⟨by unfold Equal; decide +kernel, by unfold Equal; decide +kernel,
    transitive first second third first_written second_written third_written (by unfold Equal; decide +kernel)
      (by unfold Equal; decide +kernel)⟩

/-! ### Which filters are equal -/

/-- **C102** A filter that is neither `and` nor `or` equals itself and nothing else. -/
theorem item (f g : Filter) (hp : f.parts = none) (hf : Written f) (hg : Written g) :
    ∃ b, eq f.build g.build = .ok b ∧ (b = true ↔ f = g) := item_decided hp hf hg

example : (Filter.not first).parts = none ∧ Written (.not first) ∧ Written (.not second) ∧ ¬ Equal (.not first) (.not second) :=
  ⟨rfl, ⟨[162, 15, 160, 13, 135, 1, 97, 161, 8, 135, 1, 98, 162, 3, 135, 1, 99], by decide +kernel⟩,
    ⟨[162, 15, 160, 13, 161, 8, 135, 1, 98, 162, 3, 135, 1, 99, 135, 1, 97], by decide +kernel⟩, by unfold Equal; decide +kernel⟩

theorem each_eq {l r : List Filter} (h : Each Eq l r) : l = r := by
  induction h with
  | nil => rfl
  | cons h _ ih => rw [h, ih]

/-- Sorted lists of the same filters are the same. -/
theorem ordered_unique {fs gs fs' gs' : List Filter} (hw : ∀ f ∈ fs, Written f) (h : fs.Perm gs) (ho : Ordered fs fs')
    (ho' : Ordered gs gs') : fs' = gs' := by
  have h1 := (sorted_ok ho.sorted).2
  have h2 := (sorted_ok ho'.sorted).2
  rw [List.pairwise_map] at h1 h2
  refine List.Perm.eq_of_pairwise (fun a b ha hb hab hba => ?_) h1 h2 (ho.perm.trans (h.trans ho'.perm.symm))
  obtain ⟨v, hv⟩ := hw a (ho.perm.subset ha)
  obtain ⟨w, hw⟩ := hw b (h.symm.subset (ho'.perm.subset hb))
  have := le_antisymm (hab v w hv hw) (hba w v hw hv)
  subst this
  exact wire_inj hv hw

/-- **C102** The order of the parts of a set does not matter, whatever the parts are. -/
theorem reordered (f g : Filter) (fs gs : List Filter) (hp : f.parts = some fs) (hq : g.parts = some gs) (hf : Written f)
    (hg : Written g) (h : fs.Perm gs) : Equal f g := by
  obtain ⟨fs', ho⟩ := ordered fun x hx => written_mem hp hf hx
  obtain ⟨gs', ho'⟩ := ordered fun x hx => written_mem hq hg hx
  have := ordered_unique (fun x hx => written_mem hp hf hx) h ho ho'
  subst this
  rw [set_iff hp hq hf hg ho ho']
  have : ∀ l : List Filter, (∀ x ∈ l, x ∈ fs) → Each Equal l l := by
    intro l
    induction l with
    | nil => intro _; exact .nil
    | cons x l ih =>
      intro hl
      exact .cons (reflexive x (written_mem hp hf (hl x List.mem_cons_self))) (ih fun y hy => hl y (List.mem_cons_of_mem _ hy))
  exact this fs' fun x hx => ho.perm.subset hx

example : first.parts = some [has 97, .or [has 98, .not (has 99)]] ∧ second.parts = some [.or [has 98, .not (has 99)], has 97] ∧
    Equal first second :=
  ⟨rfl, rfl, reordered first second _ _ rfl rfl first_written second_written (List.Perm.swap _ _ _)⟩

/-- **C102** Sets of filters that are no sets are equal exactly if they have the same parts. -/
theorem flat (f g : Filter) (fs gs : List Filter) (hp : f.parts = some fs) (hq : g.parts = some gs) (hf : Written f) (hg : Written g)
    (hflat : ∀ x ∈ fs, x.parts = none) : Equal f g ↔ fs.Perm gs := by
  refine ⟨fun h => ?_, reordered f g fs gs hp hq hf hg⟩
  obtain ⟨fs', ho⟩ := ordered fun x hx => written_mem hp hf hx
  obtain ⟨gs', ho'⟩ := ordered fun x hx => written_mem hq hg hx
  rw [set_iff hp hq hf hg ho ho'] at h
  have : ∀ l r : List Filter, (∀ x ∈ l, x ∈ fs) → (∀ x ∈ r, x ∈ gs) → Each Equal l r → Each Eq l r := by
    intro l
    induction l with
    | nil => intro r _ _ h; cases h; exact .nil
    | cons x l ih =>
      intro r h1 h2 h
      cases h with
      | cons h3 h4 =>
        rename_i y r
        have hx := h1 x List.mem_cons_self
        exact .cons ((item_iff (hflat x hx) (written_mem hp hf hx) (written_mem hq hg (h2 y List.mem_cons_self))).mp h3)
          (ih r (fun z hz => h1 z (List.mem_cons_of_mem _ hz)) (fun z hz => h2 z (List.mem_cons_of_mem _ hz)) h4)
  have := each_eq (this fs' gs' (fun x hx => ho.perm.subset hx) (fun x hx => ho'.perm.subset hx) h)
  subst this
  exact ho.perm.symm.trans ho'.perm

/-- Parts that are listed twice count twice. -/
example : Written (.or [has 97, has 97, has 98]) ∧ Written (.or [has 97, has 98, has 98]) ∧
    (∀ x ∈ [has 97, has 97, has 98], x.parts = none) ∧ ¬ Equal (.or [has 97, has 97, has 98]) (.or [has 97, has 98, has 98]) :=
  ⟨⟨[161, 9, 135, 1, 97, 135, 1, 97, 135, 1, 98], by decide +kernel⟩, ⟨[161, 9, 135, 1, 97, 135, 1, 98, 135, 1, 98], by decide +kernel⟩,
    by decide, by unfold Equal; decide +kernel⟩

/-! ### What equality means -/

theorem alike_and {mix : Prop} {l r : List Filter} (h : Each (Alike mix) l r) (p : List Filter) :
    Alike mix (.and (p ++ l)) (.and (p ++ r)) := by
  induction h generalizing p with
  | nil => exact .refl _
  | cons h _ ih =>
    rename_i a b as bs _
    refine .trans (.andAt p as h) ?_
    have := ih (p ++ [b])
    simpa using this

theorem alike_or {mix : Prop} {l r : List Filter} (h : Each (Alike mix) l r) (p : List Filter) :
    Alike mix (.or (p ++ l)) (.or (p ++ r)) := by
  induction h generalizing p with
  | nil => exact .refl _
  | cons h _ ih =>
    rename_i a b as bs _
    refine .trans (.orAt p as h) ?_
    have := ih (p ++ [b])
    simpa using this

theorem only_part {b : Bool} {f : Filter} {fs : List Filter} (h : Only b f) (hp : f.parts = some fs) {x : Filter} (hx : x ∈ fs) :
    Only b x := by
  cases h with
  | and h => cases hp; exact h x hx
  | or h => cases hp; exact h x hx
  | item h => rw [h] at hp; cases hp

theorem alike_core (mix : Prop) (f g : Filter) (hf : Written f) (hg : Written g) (h : Equal f g)
    (hm : mix ∨ ∃ b, Only b f ∧ Only b g) : Alike mix f g := by
  cases hp : f.parts with
  | none =>
    have := (item_iff hp hf hg).mp h
    subst this
    exact .refl _
  | some fs =>
    obtain ⟨gs, hq⟩ := equal_parts hp h
    obtain ⟨fs', ho⟩ := ordered fun x hx => written_mem hp hf hx
    obtain ⟨gs', ho'⟩ := ordered fun x hx => written_mem hq hg hx
    rw [set_iff hp hq hf hg ho ho'] at h
    have : ∀ l r : List Filter, (∀ x ∈ l, x ∈ fs) → (∀ x ∈ r, x ∈ gs) → Each Equal l r → Each (Alike mix) l r := by
      intro l
      induction l with
      | nil => intro r _ _ h; cases h; exact .nil
      | cons x l ih =>
        intro r h1 h2 h
        cases h with
        | cons h3 h4 =>
          rename_i y r
          exact .cons (alike_core mix x y (written_mem hp hf (h1 x List.mem_cons_self)) (written_mem hq hg (h2 y List.mem_cons_self)) h3
              (hm.imp id fun ⟨b, hb, hb'⟩ => ⟨b, only_part hb hp (h1 x List.mem_cons_self), only_part hb' hq (h2 y List.mem_cons_self)⟩))
            (ih r (fun z hz => h1 z (List.mem_cons_of_mem _ hz)) (fun z hz => h2 z (List.mem_cons_of_mem _ hz)) h4)
    have he := this fs' gs' (fun x hx => ho.perm.subset hx) (fun x hx => ho'.perm.subset hx) h
    have hand : Alike mix (.and fs) (.and gs) :=
      .trans (.and ho.perm.symm) (.trans (by simpa using alike_and he []) (.and ho'.perm))
    have hor : Alike mix (.or fs) (.or gs) :=
      .trans (.or ho.perm.symm) (.trans (by simpa using alike_or he []) (.or ho'.perm))
    cases f <;> simp only [Filter.parts, Option.some.injEq, reduceCtorEq] at hp <;> subst hp <;>
      cases g <;> simp only [Filter.parts, Option.some.injEq, reduceCtorEq] at hq <;> subst hq
    · exact hand
    · rcases hm with hm | ⟨b, hb, hb'⟩
      · exact .trans hand (.mixed _ hm)
      · cases hb with
        | and _ => cases hb' with
          | item h => cases h
        | item h => cases h
    · rcases hm with hm | ⟨b, hb, hb'⟩
      · exact .trans hor (.symm (.mixed _ hm))
      · cases hb with
        | or _ => cases hb' with
          | item h => cases h
        | item h => cases h
    · exact hor
termination_by sizeOf f
decreasing_by exact part_smaller hp (h1 x List.mem_cons_self)

/-- **C102** Filters that compare equal are the same up to the order of parts, and up to `and` written for `or`. -/
theorem sound (f g : Filter) (hf : Written f) (hg : Written g) (h : Equal f g) : Alike True f g :=
  alike_core True f g hf hg h (.inl trivial)

example : Alike True first third := sound first third first_written third_written (by unfold Equal; decide +kernel)

theorem sems_mem {m : Match.Filter} : ∀ {fs : List Filter}, m ∈ Filter.sems fs ↔ ∃ f ∈ fs, f.sem = m
  | [] => by simp [Filter.sems]
  | f :: fs => by
    simp only [Filter.sems, List.mem_cons, sems_mem (fs := fs)]
    constructor
    · rintro (rfl | ⟨g, h1, h2⟩)
      · exact ⟨f, .inl rfl, rfl⟩
      · exact ⟨g, .inr h1, h2⟩
    · rintro ⟨g, rfl | h1, rfl⟩
      · exact .inl rfl
      · exact .inr ⟨g, h1, rfl⟩

theorem holds_and {U : Unicode} {e : Verif.Entry} {fs gs : List Filter} {b : Bool}
    (h : ∀ g ∈ gs, ∃ f ∈ fs, ∀ b, Holds U e f.sem b → Holds U e g.sem b)
    (h' : ∀ f ∈ fs, ∃ g ∈ gs, ∀ b, Holds U e f.sem b → Holds U e g.sem b) (hb : Holds U e (Filter.and fs).sem b) :
    Holds U e (Filter.and gs).sem b := by
  simp only [Filter.sem] at hb ⊢
  cases hb with
  | and_yes _ hb =>
    refine .and_yes _ fun m hm => ?_
    obtain ⟨g, hg, rfl⟩ := sems_mem.mp hm
    obtain ⟨f, hf, hfg⟩ := h g hg
    exact hfg true (hb _ (sems_mem.mpr ⟨f, hf, rfl⟩))
  | and_no _ m hm hb =>
    obtain ⟨f, hf, rfl⟩ := sems_mem.mp hm
    obtain ⟨g, hg, hfg⟩ := h' f hf
    exact .and_no _ _ (sems_mem.mpr ⟨g, hg, rfl⟩) (hfg false hb)

theorem holds_or {U : Unicode} {e : Verif.Entry} {fs gs : List Filter} {b : Bool}
    (h : ∀ g ∈ gs, ∃ f ∈ fs, ∀ b, Holds U e f.sem b → Holds U e g.sem b)
    (h' : ∀ f ∈ fs, ∃ g ∈ gs, ∀ b, Holds U e f.sem b → Holds U e g.sem b) (hb : Holds U e (Filter.or fs).sem b) :
    Holds U e (Filter.or gs).sem b := by
  simp only [Filter.sem] at hb ⊢
  cases hb with
  | or_no _ hb =>
    refine .or_no _ fun m hm => ?_
    obtain ⟨g, hg, rfl⟩ := sems_mem.mp hm
    obtain ⟨f, hf, hfg⟩ := h g hg
    exact hfg false (hb _ (sems_mem.mpr ⟨f, hf, rfl⟩))
  | or_yes _ m hm hb =>
    obtain ⟨f, hf, rfl⟩ := sems_mem.mp hm
    obtain ⟨g, hg, hfg⟩ := h' f hf
    exact .or_yes _ _ (sems_mem.mpr ⟨g, hg, rfl⟩) (hfg true hb)

theorem at_mem {f g : Filter} {l r : List Filter} {P : Filter → Filter → Prop} (hfg : P f g) (hr : ∀ x, P x x) :
    ∀ x ∈ l ++ f :: r, ∃ y ∈ l ++ g :: r, P x y := by
  intro x hx
  rcases List.mem_append.mp hx with hx | hx
  · exact ⟨x, List.mem_append_left _ hx, hr x⟩
  · rcases List.mem_cons.mp hx with rfl | hx
    · exact ⟨g, by simp, hfg⟩
    · exact ⟨x, by simp [hx], hr x⟩

/-- The same filter up to order holds of the same entries. -/
theorem alike_holds {U : Unicode} {e : Verif.Entry} {f g : Filter} (h : Alike False f g) :
    ∀ b, Holds U e f.sem b ↔ Holds U e g.sem b := by
  induction h with
  | refl f => exact fun _ => Iff.rfl
  | symm _ ih => exact fun b => (ih b).symm
  | trans _ _ ih₁ ih₂ => exact fun b => (ih₁ b).trans (ih₂ b)
  | and hp =>
    exact fun b => ⟨holds_and (fun g hg => ⟨g, hp.symm.subset hg, fun _ h => h⟩) fun f hf => ⟨f, hp.subset hf, fun _ h => h⟩,
      holds_and (fun g hg => ⟨g, hp.subset hg, fun _ h => h⟩) fun f hf => ⟨f, hp.symm.subset hf, fun _ h => h⟩⟩
  | or hp =>
    exact fun b => ⟨holds_or (fun g hg => ⟨g, hp.symm.subset hg, fun _ h => h⟩) fun f hf => ⟨f, hp.subset hf, fun _ h => h⟩,
      holds_or (fun g hg => ⟨g, hp.subset hg, fun _ h => h⟩) fun f hf => ⟨f, hp.symm.subset hf, fun _ h => h⟩⟩
  | andAt l r _ ih =>
    rename_i f g _
    refine fun b => ⟨holds_and ?_ ?_, holds_and ?_ ?_⟩
    · exact at_mem (P := fun y x => ∀ b, Holds U e x.sem b → Holds U e y.sem b) (fun b => (ih b).mp) fun _ _ h => h
    · exact at_mem (P := fun x y => ∀ b, Holds U e x.sem b → Holds U e y.sem b) (fun b => (ih b).mp) fun _ _ h => h
    · exact at_mem (P := fun y x => ∀ b, Holds U e x.sem b → Holds U e y.sem b) (fun b => (ih b).mpr) fun _ _ h => h
    · exact at_mem (P := fun x y => ∀ b, Holds U e x.sem b → Holds U e y.sem b) (fun b => (ih b).mpr) fun _ _ h => h
  | orAt l r _ ih =>
    rename_i f g _
    refine fun b => ⟨holds_or ?_ ?_, holds_or ?_ ?_⟩
    · exact at_mem (P := fun y x => ∀ b, Holds U e x.sem b → Holds U e y.sem b) (fun b => (ih b).mp) fun _ _ h => h
    · exact at_mem (P := fun x y => ∀ b, Holds U e x.sem b → Holds U e y.sem b) (fun b => (ih b).mp) fun _ _ h => h
    · exact at_mem (P := fun y x => ∀ b, Holds U e x.sem b → Holds U e y.sem b) (fun b => (ih b).mpr) fun _ _ h => h
    · exact at_mem (P := fun x y => ∀ b, Holds U e x.sem b → Holds U e y.sem b) (fun b => (ih b).mpr) fun _ _ h => h
  | not _ ih =>
    intro b
    simp only [Filter.sem]
    constructor
    · intro h; cases h with
      | not _ b h => exact .not _ b ((ih b).mp h)
    · intro h; cases h with
      | not _ b h => exact .not _ b ((ih b).mpr h)
  | mixed _ h => exact h.elim

/-- **C102** Filters without `or` outside negations, or without `and`, that compare equal hold of the same entries. -/
theorem means_partial (b : Bool) (f g : Filter) (hf : Written f) (hg : Written g) (hb : Only b f) (hb' : Only b g) (h : Equal f g)
    (U : Unicode) (e : Verif.Entry) (x : Bool) : Holds U e f.sem x ↔ Holds U e g.sem x :=
  alike_holds (alike_core False f g hf hg h (.inr ⟨b, hb, hb'⟩)) x

/-- The condition on `or` is only for what is outside negations. -/
example : Only true (.and [has 97, .and [has 98, .not (.or [has 99])]]) ∧ Only true (.and [.and [.not (.or [has 99]), has 98], has 97]) ∧
    Equal (.and [has 97, .and [has 98, .not (.or [has 99])]]) (.and [.and [.not (.or [has 99]), has 98], has 97]) := by
  have hn : Only true (.not (.or [has 99])) := .item rfl
  have hi : ∀ c, Only true (has c) := fun _ => .item rfl
  refine ⟨.and ?_, .and ?_, by unfold Equal; decide +kernel⟩
  · intro f hf
    rcases List.mem_cons.mp hf with rfl | hf
    · exact hi _
    · rw [List.mem_singleton.mp hf]
      exact .and fun g hg => by
        rcases List.mem_cons.mp hg with rfl | hg
        · exact hi _
        · rw [List.mem_singleton.mp hg]; exact hn
  · intro f hf
    rcases List.mem_cons.mp hf with rfl | hf
    · exact .and fun g hg => by
        rcases List.mem_cons.mp hg with rfl | hg
        · exact hn
        · rw [List.mem_singleton.mp hg]; exact hi _
    · rw [List.mem_singleton.mp hf]; exact hi _

/-! ### Messages -/

theorem build_eq (m k : Msg) : eq m.build k.build = wireEq m.build k.build := by
  rw [eq_step]; rfl

/-- **C102** Messages are equal exactly if they are the same message. -/
theorem messages_partial (m k : Msg) (hm : m.op.WF) (hk : k.op.WF) (v w : Bytes) (hv : toWire m.build = .ok v) (hw : toWire k.build = .ok w) :
    ∃ b, eq m.build k.build = .ok b ∧ ne m.build k.build = .ok (!b) ∧ (b = true ↔ m = k) := by
  refine ⟨v == w, ?_, ?_, ?_⟩
  · rw [build_eq]
    simp only [wireEq, hv, hw, bind, Except.bind, pure, Except.pure]
  · simp only [ne, hv, hw, bind, Except.bind, pure, Except.pure, bne]
  · rw [beq_iff_eq]
    constructor
    · rintro rfl; exact C06.encoding_injective_partial m k hm hk v hv hw
    · rintro rfl; rw [hv] at hw; exact Except.ok.inj hw

example : C06.sample.op.WF ∧ (∃ w, toWire C06.sample.build = .ok w) ∧ eq C06.sample.build C06.sample.build = .ok true ∧
    eq C06.sample.build { C06.sample with id := 6 }.build = .ok false :=
  ⟨trivial, ⟨[48, 53, 2, 1, 5, 99, 38, 4, 1, 100, 10, 1, 2, 10, 1, 0, 2, 1, 0, 2, 1, 0, 1, 1, 255, 160, 13, 162, 3, 135, 1, 97, 163, 6, 4,
    1, 98, 4, 1, 99, 48, 3, 4, 1, 120, 160, 8, 48, 6, 4, 1, 49, 1, 1, 255], by decide +kernel⟩, by decide +kernel, by decide +kernel⟩

/-! ### Where the property fails -/

/-- **C102** Where the property fails: an `and` equals the `or` of the same parts. -/
theorem and_or (fs : List Filter) (h : Written (.and fs)) (h' : Written (.or fs)) : Equal (.and fs) (.or fs) :=
  reordered _ _ fs fs rfl rfl h h' (List.Perm.refl _)

/-- **C102** Where the property fails: comparing a set with a presence test or a negation whose encoding has the same length raises
`TypeError`; the other way round they are found different. -/
theorem raises (f g : Filter) (fs : List Filter) (hp : f.parts = some fs) (hq : (∃ a, g = .present a) ∨ ∃ k, g = .not k) (v w : Bytes)
    (hv : toWire f.build = .ok v) (hw : toWire g.build = .ok w) (hl : v.length = w.length) :
    eq f.build g.build = .error .typeError ∧ eq g.build f.build = .ok false := by
  have hg : g.parts = none := by rcases hq with ⟨a, rfl⟩ | ⟨k, rfl⟩ <;> rfl
  have hi : iter g.build = .error .typeError := by rcases hq with ⟨a, rfl⟩ | ⟨k, rfl⟩ <;> rfl
  constructor
  · obtain ⟨fs', ho⟩ := ordered fun x hx => written_mem hp ⟨v, hv⟩ hx
    rw [eq_step, filterSet_build, hp]
    simp only [Option.map_some, setEq, hv, hw, bind, Except.bind, hl, ne_eq, not_true_eq_false, if_false, ho.sorted, hi]
  · obtain ⟨b, h1, h2⟩ := item g f hg ⟨w, hw⟩ ⟨v, hv⟩
    cases b with
    | false => exact h1
    | true =>
      have := h2.mp rfl
      subst this
      rw [hg] at hp; cases hp

/-- `(&(a=*)) == (!(a=*))` and `(&(a=*)) == (abc=*)` raise. -/
example : eq (Filter.and [has 97]).build (Filter.not (has 97)).build = .error .typeError ∧
    eq (Filter.and [has 97]).build (Filter.present [97, 98, 99]).build = .error .typeError :=
  ⟨(raises (.and [has 97]) (.not (has 97)) _ rfl (.inr ⟨_, rfl⟩) [160, 3, 135, 1, 97] [162, 3, 135, 1, 97] (by decide +kernel)
      (by decide +kernel) rfl).1,
    (raises (.and [has 97]) (.present [97, 98, 99]) _ rfl (.inl ⟨_, rfl⟩) [160, 3, 135, 1, 97] [135, 3, 97, 98, 99] (by decide +kernel)
      (by decide +kernel) rfl).1⟩

/-- **C102** Where the property fails: sets with the same parts in another order are equal and also not equal. -/
theorem both_equal_and_not (f g : Filter) (fs gs : List Filter) (hp : f.parts = some fs) (hq : g.parts = some gs) (hf : Written f)
    (hg : Written g) (h : fs.Perm gs) (hne : f ≠ g) : eq f.build g.build = .ok true ∧ ne f.build g.build = .ok true := by
  refine ⟨reordered f g fs gs hp hq hf hg h, ?_⟩
  obtain ⟨v, hv⟩ := hf
  obtain ⟨w, hw⟩ := hg
  simp only [ne, hv, hw, bind, Except.bind, pure, Except.pure, Except.ok.injEq, bne_iff_ne]
  rintro rfl
  exact hne (wire_inj hv hw)

example : first ≠ second ∧ eq first.build second.build = .ok true ∧ ne first.build second.build = .ok true := by
  have h : first ≠ second := fun h => by simp [first, second, has] at h
  exact ⟨h, both_equal_and_not first second _ _ rfl rfl first_written second_written (List.Perm.swap _ _ _) h⟩

/-- **C102** Where the property fails: a set has no hash.  What has one has the hash of what it is equal to. -/
theorem no_hash (hash : Bytes → Int) (f g : Filter) :
    (∀ fs, f.parts = some fs → Equality.hash hash f.build = .error .typeError) ∧
    (f.parts = none → Written f → Written g → Equal f g → ∃ i, Equality.hash hash f.build = .ok i ∧ Equality.hash hash g.build = .ok i) := by
  constructor
  · intro fs hp
    simp only [Equality.hash, filterSet_build, hp, Option.map_some]
  · intro hp hf hg h
    have := (item_iff hp hf hg).mp h
    subst this
    obtain ⟨v, hv⟩ := hf
    exact ⟨hash v, by simp [Equality.hash, filterSet_build, hp, hv, bind, Except.bind, pure, Except.pure],
      by simp [Equality.hash, filterSet_build, hp, hv, bind, Except.bind, pure, Except.pure]⟩

/-- **C102** Where the property fails: `(|(&(a=*)(b=*))(&(a=*)(c=*)))` and `(|(&(b=*)(a=*))(&(a=*)(c=*)))` are the same filter and
are found different.  So are `(!(&(a=*)(b=*)))` and `(!(&(b=*)(a=*)))`. -/
theorem nested :
    (Alike False (.or [.and [has 97, has 98], .and [has 97, has 99]]) (.or [.and [has 98, has 97], .and [has 97, has 99]]) ∧
      eq (Filter.or [.and [has 97, has 98], .and [has 97, has 99]]).build
        (Filter.or [.and [has 98, has 97], .and [has 97, has 99]]).build = .ok false) ∧
    Alike False (.not (.and [has 97, has 98])) (.not (.and [has 98, has 97])) ∧
      eq (Filter.not (.and [has 97, has 98])).build (Filter.not (.and [has 98, has 97])).build = .ok false :=
  ⟨⟨.orAt [] _ (.and (List.Perm.swap _ _ _)), by decide +kernel⟩, .not (.and (List.Perm.swap _ _ _)), by decide +kernel⟩

/-- **C102** Where the property fails: `(&(a=*)(b=*))` and `(|(a=*)(b=*))` are equal, and only one of them holds of an entry with
just the attribute `a`. -/
theorem and_or_differ :
    Equal (.and [has 97, has 98]) (.or [has 97, has 98]) ∧
    ¬ Holds asciiTables ⟨[], [(.bytes [97], [])]⟩ (Filter.and [has 97, has 98]).sem true ∧
    Holds asciiTables ⟨[], [(.bytes [97], [])]⟩ (Filter.or [has 97, has 98]).sem true := by
  refine ⟨by unfold Equal; decide +kernel, fun h => ?_, ?_⟩
  · simp only [Filter.sem, Filter.sems, has] at h
    cases h with
    | and_yes _ h =>
      have := h (.present (.bytes [98])) (by simp)
      cases this with
      | present_yes _ vs h =>
        obtain ⟨k, hk, hs⟩ := h
        simp only [List.mem_singleton, Prod.mk.injEq] at hk
        rw [hk.1] at hs
        unfold SameName at hs
        revert hs
        decide +kernel
  · simp only [Filter.sem, Filter.sems, has]
    refine .or_yes _ (.present (.bytes [97])) (by simp) (.present_yes _ [] ⟨.bytes [97], by simp, rfl⟩)

/-- **C102** Where the property fails: two lists of filters that are found different are both equal to one
`and`; so is a BERSet. -/
theorem not_transitive :
    eq (.seq .sequence 0x10 [(has 97).build, (has 98).build]) (Filter.and [has 97, has 98]).build = .ok true ∧
    eq (Filter.and [has 97, has 98]).build (.seq .sequence 0x10 [(has 98).build, (has 97).build]) = .ok true ∧
    eq (.seq .sequence 0x10 [(has 97).build, (has 98).build]) (.seq .sequence 0x10 [(has 98).build, (has 97).build]) = .ok false ∧
    eq (.seq .set 0x11 [(has 98).build, (has 97).build]) (Filter.and [has 97, has 98]).build = .ok true := by
  decide +kernel

/-- **C102** Where it matters: the server asks whether the filter of a search is `(objectClass=*)`.  A base search at the empty DN with
a set of thirteen octets is refused as a protocol error. -/
theorem refused (env : Env) (luck : Luck) (st : State) (i : Int) (hi : 0 < i ∧ i < 2 ^ 31) (hfit : Fit (luck.text .typeError))
    (t : UInt8) (deref sl tl ty : PyVal) (f : Filter) (fs : List Filter) (hp : f.parts = some fs) (w : Bytes)
    (hw : toWire f.build = .ok w) (hlen : w.length = 13) (wanted : List PyVal) (cs : C41.Controls) (hcs : ¬ C41.HasCritical cs) :
    ∃ s : Served, Server.serve env luck st (.message (.int i) (.searchRequest t (.bytes []) (.int 0) deref sl tl ty f.build wanted)
        (some cs)) = some s ∧ s.state = st ∧ s.sent = [(.int i, (Op.result .searchDone 2 [] (luck.text .typeError)).build)] := by
  have hi0 : PyVal.int i ≠ .int 0 := by intro h; cases h; omega
  have hroot : Server.wantsRootDSE (.bytes []) (.int 0) f.build = .error .typeError := by
    obtain ⟨v, hv, hvl⟩ : ∃ v, toWire (Filter.present (ascii "objectClass")).build = .ok v ∧ v.length = 13 :=
      ⟨0x87 :: 11 :: ascii "objectClass", by decide +kernel, by decide +kernel⟩
    have := (raises f (.present (ascii "objectClass")) fs hp (.inl ⟨_, rfl⟩) w v hw hv (by omega)).1
    simp only [Server.wantsRootDSE, and_self, if_true, Server.isPresentClass]
    exact this
  have hfin : Server.encodes (.int i) (Op.result .searchDone 2 [] (luck.text .typeError)).build = true := by
    refine Server.encodes_op i _ ⟨by omega, hi.2⟩ ?_
    unfold Fit at hfit
    have hint : intSize 2 < 2 ^ 40 := by decide +kernel
    simp only [Op.size, octSize, elementSize, List.length_nil]
    omega
  have hhandle : Server.handleSearch env luck st.heap (.int i) (.bytes []) (.int 0) f.build wanted (some cs) =
      .error (.py .typeError) := by
    simp only [Server.handleSearch, Server.checkControls, C41.checkEach_ok hcs, hroot, Server.lift, bind, Except.bind]
  exact ⟨⟨st, [(.int i, (Op.result .searchDone 2 [] (luck.text .typeError)).build)]⟩, by
    simp only [Server.serve, Server.isRequest, if_true, if_neg hi0, Server.call, hhandle, List.map_nil, List.nil_append]
    have : Server.failWith (.searchRequest t (.bytes []) (.int 0) deref sl tl ty f.build wanted)
        ((Server.Fault.py .typeError).report luck).1 ((Server.Fault.py .typeError).report luck).2 =
        (Op.result .searchDone 2 [] (luck.text .typeError)).build := rfl
    rw [this]
    simp only [Server.final, hfin, if_true], rfl, rfl⟩

example : (Filter.and [.equal (ascii "cn") (ascii "abc")]).parts = some [.equal (ascii "cn") (ascii "abc")] ∧
    (∃ w, toWire (Filter.and [.equal (ascii "cn") (ascii "abc")]).build = .ok w ∧ w.length = 13) ∧ Fit (C40.luck.text .typeError) ∧
    ¬ C41.HasCritical [] :=
  ⟨rfl, ⟨[160, 11, 163, 9, 4, 2, 99, 110, 4, 3, 97, 98, 99], by decide +kernel, rfl⟩, by unfold Fit; decide +kernel,
    fun ⟨_, _, _, h, _⟩ => by cases h⟩

/-- A directory whose root has the empty DN. -/
def root : Tree.Heap := [⟨⟨[], [(.bytes (ascii "cn"), [.bytes (ascii "abc")])]⟩, none, []⟩]

/-- **C102** Where it matters: `(cn=abc)` finds the root of a directory, `(&(cn=abc))` is refused. -/
theorem refused_search :
    C67.answers (Server.serve C40.env C40.luck ⟨root, none⟩ (.message (.int 1) (.searchRequest 0x43 (.bytes []) (.int 0) (.int 0) (.int 0)
        (.int 0) (.int 0) (Filter.equal (ascii "cn") (ascii "abc")).build []) none)) =
      [[.int 1, .bytes [], .bytes (ascii "cn"), .bytes (ascii "abc")], [.int 1, .int 0]] ∧
    C67.answers (Server.serve C40.env C40.luck ⟨root, none⟩ (.message (.int 1) (.searchRequest 0x43 (.bytes []) (.int 0) (.int 0) (.int 0)
        (.int 0) (.int 0) (Filter.and [.equal (ascii "cn") (ascii "abc")]).build []) none)) = [[.int 1, .int 2]] := by
  decide +kernel

end Verif.C102
