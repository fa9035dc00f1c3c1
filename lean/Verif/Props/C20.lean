import Verif.Lemmas.Diff
/-
C20  Applying the difference of two entries turns one into the other.

The full claim fails in two ways, shown by `removed_attribute_stays` and `respelling_loses_value`.  What holds is proved
for entries that spell each attribute name in one way and whose values can be decoded: the values always come out right,
and the entries are equal exactly if no attribute had to go away.
-/
namespace Verif.C20
open Verif.Spec Verif.Delta PyStr

/-- Two entries that spell every attribute name alike, in ASCII, list no attribute and no value twice, and of which the
first has only values that can be decoded. -/
structure Comparable (a b : Entry) : Prop where
  ascii : ∀ p ∈ a.attrs ++ b.attrs, p.1.Ascii
  spelling : ∀ p ∈ a.attrs ++ b.attrs, ∀ q ∈ a.attrs ++ b.attrs, SameName p.1 q.1 → p.1 = q.1
  names_a : (a.attrs.map (·.1)).Nodup
  names_b : (b.attrs.map (·.1)).Nodup
  values_a : ∀ p ∈ a.attrs, p.2.Nodup
  decodable : ∀ p ∈ a.attrs, ∀ v ∈ p.2, v.Decodable

/-- The entry has value `v` for attribute `k`. -/
def HasValue (e : Entry) (k v : PyStr) : Prop := ∃ vs, HasAttr e k vs ∧ v ∈ vs

/-- The names used. -/
def Names (a b : Entry) (k : PyStr) : Prop := k ∈ names a ∨ k ∈ names b

theorem Comparable.coherent {a b : Entry} (h : Comparable a b) : Coherent (Names a b) := by
  have key : ∀ k, Names a b k → ∃ p ∈ a.attrs ++ b.attrs, p.1 = k := by
    rintro k (hk | hk) <;> obtain ⟨p, hp, rfl⟩ := List.mem_map.mp hk <;> exact ⟨p, by simp [hp], rfl⟩
  refine ⟨fun k hk => ?_, fun k k' hk hk' hs => ?_⟩
  · obtain ⟨p, hp, rfl⟩ := key k hk; exact h.ascii p hp
  · obtain ⟨p, hp, rfl⟩ := key k hk
    obtain ⟨q, hq, rfl⟩ := key k' hk'
    exact h.spelling p hp q hq hs

theorem Comparable.left {a b : Entry} (h : Comparable a b) : Within (Names a b) a.attrs :=
  ⟨fun p hp => .inl (List.mem_map.mpr ⟨p, hp, rfl⟩), h.names_a⟩

theorem Comparable.right {a b : Entry} (h : Comparable a b) : Within (Names a b) b.attrs :=
  ⟨fun p hp => .inr (List.mem_map.mpr ⟨p, hp, rfl⟩), h.names_b⟩

theorem hasValue_iff {K : PyStr → Prop} {e : Entry} (he : Within K e.attrs) {k v : PyStr} :
    HasValue e k v ↔ ∃ k', K k' ∧ SameName k' k ∧ v ∈ (stored k' e.attrs).getD [] := by
  constructor
  · rintro ⟨vs, ⟨k', hm, hn⟩, hv⟩
    exact ⟨k', he.names _ hm, hn, by rw [stored_of_mem he.nodup hm]; exact hv⟩
  · rintro ⟨k', _, hn, hv⟩
    cases h : stored k' e.attrs with
    | none => simp [h] at hv
    | some vs => exact ⟨vs, ⟨k', stored_mem h, hn⟩, by simpa [h] using hv⟩

/-- The three lists of attributes that the difference works through. -/
def order (a b : Entry) : List PyStr :=
  sortBytes (AttributeSet.minus (names b) (names a)) ++ sortBytes (AttributeSet.minus (names a) (names b)) ++
    sortBytes ((names a).filter (· ∈ names b))

theorem mem_order {a b : Entry} {k : PyStr} : k ∈ order a b ↔ Names a b k := by
  simp only [order, List.mem_append, (sortBytes_perm _).mem_iff, mem_minus, List.mem_filter, decide_eq_true_eq, Names]
  by_cases h1 : k ∈ names a <;> by_cases h2 : k ∈ names b <;> simp [h1, h2]

theorem order_nodup {a b : Entry} (h : Comparable a b) : (order a b).Nodup := by
  have e1 : (names a).Nodup := h.names_a
  have e2 : (names b).Nodup := h.names_b
  simp only [order, List.nodup_append, (sortBytes_perm _).nodup_iff, (sortBytes_perm _).mem_iff, List.mem_append, mem_minus,
    List.mem_filter, decide_eq_true_eq]
  refine ⟨⟨e2.filter _, e1.filter _, ?_⟩, e1.filter _, ?_⟩
  · rintro x ⟨hx, _⟩ y ⟨_, hy⟩ rfl; exact hy hx
  · rintro x (⟨_, hx⟩ | ⟨_, hx⟩) y ⟨hy1, hy2⟩ rfl
    · exact hx hy1
    · exact hx hy2

theorem diff_eq {U : Unicode} (hU : Sane U) {a b : Entry} (h : Comparable a b) (hd : Dn.Dn.eq U a.dn b.dn = true) :
    ∃ same, entryEq U a b = .ok same ∧ diff U a b = .ok (if same then none else some ((order a b).flatMap (modsFor a b))) := by
  obtain ⟨r, hr, _⟩ := entryEq_eq hU h.coherent h.left h.right
  refine ⟨r, hr, ?_⟩
  have e1 := addedMods_eq (a := a) hU h.coherent h.right (sortBytes (AttributeSet.minus (names b) (names a)))
    (fun k hk => by rw [(sortBytes_perm _).mem_iff, mem_minus] at hk; exact ⟨.inr hk.1, hk⟩)
  have e2 := deletedMods_eq (b := b) hU h.coherent h.left (sortBytes (AttributeSet.minus (names a) (names b)))
    (fun k hk => by rw [(sortBytes_perm _).mem_iff, mem_minus] at hk; exact ⟨.inl hk.1, hk⟩)
  have e3 := sharedMods_eq hU h.coherent h.left h.right (sortBytes ((names a).filter (· ∈ names b)))
    (fun k hk => by
      rw [(sortBytes_perm _).mem_iff, List.mem_filter, decide_eq_true_eq] at hk; exact ⟨.inl hk.1, hk⟩)
  simp only [diff, hd, hr, bind, Except.bind, e1, e2, e3, pure, Except.pure]
  cases r <;> simp [order]

/-- The outcome for every attribute. -/
theorem patched {U : Unicode} (hU : Sane U) {a b : Entry} (h : Comparable a b) {ms ms' : List Mod}
    (hd : diff U a b = .ok (some ms)) (hr : Reordered ms ms') :
    ∃ e', patchAll U ms' a = (e', none) ∧ e'.dn = a.dn ∧ Within (Names a b) e'.attrs ∧
      ∀ k, Outcome a b k (stored k e'.attrs) := by
  have hdn : Dn.Dn.eq U a.dn b.dn = true := by
    simp only [diff] at hd
    split at hd
    · cases hd
    · rename_i hx; simpa using hx
  obtain ⟨same, _, hd'⟩ := diff_eq hU h hdn
  rw [hd] at hd'
  have hms : ms = (order a b).flatMap (modsFor a b) := by
    cases same
    · simpa using Except.ok.inj hd'
    · simp at hd'
  subst hms
  obtain ⟨e', h1, h2, h3, h4, h5⟩ := patchAll_keys (U := U) (K := Names a b) (modsFor a b) (Outcome a b) a (order a b)
    (order_nodup h)
    (fun k hk e he h0 r hr => modsFor_outcome hU h.coherent h.values_a h.decodable (mem_order.mp hk) e he h0 r hr)
    a h.left (fun _ _ => rfl) ms' hr
  refine ⟨e', h1, h2, h3, fun k => ?_⟩
  by_cases hk : k ∈ order a b
  · exact h4 k hk
  · rw [h5 k hk]
    rw [mem_order, Names, not_or] at hk
    have e1 : stored k a.attrs = none := stored_none hk.1
    have e2 : stored k b.attrs = none := stored_none hk.2
    rw [e1]
    exact ⟨by simp [e2], by simp [e2], by simp [e1]⟩

/-- Between comparable entries of one name the difference is computed, and says "no change" exactly if the two have the
same attributes with the same values. -/
theorem no_change_partial {U : Unicode} (hU : Sane U) {a b : Entry} (h : Comparable a b) (hd : Dn.Dn.eq U a.dn b.dn = true) :
    ∃ r, diff U a b = .ok r ∧
      (r = none ↔ (∀ k, (∃ vs, HasAttr a k vs) ↔ ∃ vs, HasAttr b k vs) ∧ ∀ k v, HasValue a k v ↔ HasValue b k v) := by
  obtain ⟨r, hr, hi⟩ := entryEq_eq hU h.coherent h.left h.right
  obtain ⟨same, hs, hdiff⟩ := diff_eq hU h hd
  rw [hr] at hs
  cases hs
  refine ⟨_, hdiff, ?_⟩
  have e : (if r = true then none else some ((order a b).flatMap (modsFor a b))) = none ↔ r = true := by cases r <;> simp
  rw [e, hi]
  have hn : ∀ {x y : Entry}, (∀ k, (∃ vs, HasAttr x k vs) → ∃ vs, HasAttr y k vs) → (∀ k ∈ names x, Names a b k) →
      (∀ k ∈ names y, Names a b k) → ∀ k, k ∈ names x → k ∈ names y := by
    intro x y hxy hx hy k hk
    obtain ⟨p, hp, rfl⟩ := List.mem_map.mp hk
    obtain ⟨vs, k', hm, hn⟩ := hxy p.1 ⟨p.2, p.1, hp, rfl⟩
    have hk' : k' ∈ names y := List.mem_map.mpr ⟨_, hm, rfl⟩
    have := h.coherent.unique k' p.1 (hy _ hk') (hx _ hk) hn
    exact this ▸ hk'
  have ha : ∀ {x y : Entry}, (∀ k, k ∈ names x → k ∈ names y) → ∀ k, (∃ vs, HasAttr x k vs) → ∃ vs, HasAttr y k vs := by
    rintro x y hxy k ⟨vs, k', hm, hn⟩
    obtain ⟨q, hq, hqe⟩ := List.mem_map.mp (hxy k' (List.mem_map.mpr ⟨_, hm, rfl⟩))
    exact ⟨q.2, q.1, hq, by rw [hqe]; exact hn⟩
  have hv : ∀ {x : Entry}, Within (Names a b) x.attrs → ∀ k, Names a b k → ∀ v, v ∈ (stored k x.attrs).getD [] ↔ HasValue x k v := by
    intro x hx k hk v
    rw [hasValue_iff hx]
    exact ⟨fun hm => ⟨k, hk, rfl, hm⟩, fun ⟨k', hk', hs, hm⟩ => h.coherent.unique k' k hk' hk hs ▸ hm⟩
  constructor
  · rintro ⟨_, h1, h2⟩
    refine ⟨fun k => ⟨ha (fun k => (h1 k).mp) k, ha (fun k => (h1 k).mpr) k⟩, fun k v => ?_⟩
    rw [hasValue_iff h.left, hasValue_iff h.right]
    simp only [h2]
  · rintro ⟨h1, h2⟩
    refine ⟨hd, fun k => ⟨hn (fun k => (h1 k).mp) (fun _ => .inl) (fun _ => .inr) k,
      hn (fun k => (h1 k).mpr) (fun _ => .inr) (fun _ => .inl) k⟩, fun k v => ?_⟩
    by_cases hk : Names a b k
    · rw [hv h.left k hk, hv h.right k hk]; exact h2 k v
    · rw [Names, not_or] at hk
      rw [show stored k a.attrs = none from stored_none hk.1, show stored k b.attrs = none from stored_none hk.2]

/-- Applying the difference, whatever order the value sets are walked in, raises nothing, keeps the name and leaves
exactly the values of the other entry. -/
theorem diff_patch_partial {U : Unicode} (hU : Sane U) {a b : Entry} (h : Comparable a b) {ms ms' : List Mod}
    (hd : diff U a b = .ok (some ms)) (hr : Reordered ms ms') :
    ∃ e', patchAll U ms' a = (e', none) ∧ e'.dn = a.dn ∧ ∀ k v, HasValue e' k v ↔ HasValue b k v := by
  obtain ⟨e', h1, h2, h3, h4⟩ := patched hU h hd hr
  refine ⟨e', h1, h2, fun k v => ?_⟩
  rw [hasValue_iff h3, hasValue_iff h.right]
  simp only [(h4 _).values]

/-- The result equals the other entry exactly if every attribute that has a value is also an attribute of the other. -/
theorem diff_patch_equal_iff {U : Unicode} (hU : Sane U) {a b : Entry} (h : Comparable a b) {ms ms' : List Mod}
    (hd : diff U a b = .ok (some ms)) (hr : Reordered ms ms') :
    ∃ e' r, patchAll U ms' a = (e', none) ∧ entryEq U e' b = .ok r ∧
      (r = true ↔ ∀ p ∈ a.attrs, p.2 ≠ [] → ∃ vs, HasAttr b p.1 vs) := by
  obtain ⟨e', h1, h2, h3, h4⟩ := patched hU h hd hr
  have hdn : Dn.Dn.eq U a.dn b.dn = true := by
    simp only [diff] at hd
    split at hd
    · cases hd
    · rename_i hx; simpa using hx
  obtain ⟨r, hr, hi⟩ := entryEq_eq hU h.coherent h3 h.right
  refine ⟨e', r, h1, hr, ?_⟩
  rw [hi, h2]
  simp only [hdn, true_and]
  have key : ∀ k, Names a b k → ((∃ vs, HasAttr b k vs) ↔ k ∈ names b) := by
    intro k hk
    constructor
    · rintro ⟨vs, k', hm, hn⟩
      have hk' : k' ∈ names b := List.mem_map.mpr ⟨_, hm, rfl⟩
      exact h.coherent.unique k' k (.inr hk') hk hn ▸ hk'
    · intro hm
      obtain ⟨q, hq, rfl⟩ := List.mem_map.mp hm
      exact ⟨q.2, q.1, hq, rfl⟩
  constructor
  · rintro ⟨hn, _⟩ p hp hne
    rw [key p.1 (.inl (List.mem_map.mpr ⟨p, hp, rfl⟩))]
    apply Classical.byContradiction
    intro hb
    refine hb ((hn p.1).mp ?_)
    rw [mem_names, (h4 p.1).gone (stored_none hb), stored_of_mem h.names_a hp]
    exact hne
  · intro hall
    refine ⟨fun k => ?_, fun k v => (h4 k).values v⟩
    by_cases hk : k ∈ names b
    · simp only [hk, iff_true]
      rw [mem_names]
      exact (h4 k).kept (mem_names.mp hk)
    · simp only [hk, iff_false]
      rw [mem_names, (h4 k).gone (stored_none hk)]
      simp only [ne_eq, Decidable.not_not]
      cases hs : stored k a.attrs with
      | none => rfl
      | some s =>
        apply Classical.byContradiction
        intro hne
        have hm := stored_mem hs
        exact hk ((key k (.inl (List.mem_map.mpr ⟨_, hm, rfl⟩))).mp (hall (k, s) hm (by simpa using hne)))

/-- The full claim for one pair of entries. -/
def Claim (U : Unicode) (a b : Entry) : Prop :=
  ∀ ms, diff U a b = .ok (some ms) → ∃ e', patchAll U ms a = (e', none) ∧ entryEq U e' b = .ok true

/-- The name of the entries below. -/
def dn0 : Dn.Dn := [[⟨['o'], ['x']⟩]]

/-- An attribute that is to be removed stays, without values. -/
theorem removed_attribute_stays :
    ∃ a b, Comparable a b ∧ ¬ Claim asciiTables a b := by
  refine ⟨⟨dn0, [(.bytes [99, 110], [.bytes [97]]), (.bytes [115, 110], [.bytes [98]])]⟩,
    ⟨dn0, [(.bytes [99, 110], [.bytes [97]])]⟩, ?_, ?_⟩
  · refine ⟨by decide, ?_, by decide, by decide, by decide, ?_⟩
    · intro p hp q hq hs
      unfold SameName at hs
      revert p q
      decide
    · intro p hp v hv
      have : v.Ascii := by revert p v; decide
      exact ascii_decodable this
  · intro h
    obtain ⟨e', h1, h2⟩ := h [⟨.delete, .bytes [115, 110], [.bytes [98]]⟩] (by decide +kernel)
    have h3 : e' = ⟨dn0, [(.bytes [99, 110], [.bytes [97]]), (.bytes [115, 110], [])]⟩ := by
      have : patchAll asciiTables [⟨.delete, .bytes [115, 110], [.bytes [98]]⟩]
          ⟨dn0, [(.bytes [99, 110], [.bytes [97]]), (.bytes [115, 110], [.bytes [98]])]⟩ =
          (⟨dn0, [(.bytes [99, 110], [.bytes [97]]), (.bytes [115, 110], [])]⟩, none) := by decide +kernel
      rw [this] at h1
      exact (congrArg Prod.fst h1).symm
    subst h3
    revert h2
    decide +kernel

/-- If the two entries differ only in the case of an attribute name, applying the difference loses the value. -/
theorem respelling_loses_value : ∃ a b ms e',
    (∀ k v, HasValue a k v ↔ HasValue b k v) ∧ diff asciiTables a b = .ok (some ms) ∧ patchAll asciiTables ms a = (e', none) ∧
      HasValue b (.bytes [99, 110]) (.bytes [97]) ∧ ∀ k v, ¬ HasValue e' k v := by
  refine ⟨⟨dn0, [(.bytes [99, 110], [.bytes [97]])]⟩, ⟨dn0, [(.bytes [67, 78], [.bytes [97]])]⟩,
    [⟨.add, .bytes [67, 78], [.bytes [97]]⟩, ⟨.delete, .bytes [99, 110], [.bytes [97]]⟩],
    ⟨dn0, [(.bytes [99, 110], [])]⟩, ?_, by decide +kernel, by decide +kernel, ?_, ?_⟩
  · intro k v
    simp only [HasValue, HasAttr, SameName, List.mem_singleton, Prod.mk.injEq]
    constructor
    · rintro ⟨vs, ⟨k', ⟨rfl, rfl⟩, hn⟩, hv⟩
      exact ⟨_, ⟨_, ⟨rfl, rfl⟩, by rw [← hn]; decide⟩, hv⟩
    · rintro ⟨vs, ⟨k', ⟨rfl, rfl⟩, hn⟩, hv⟩
      exact ⟨_, ⟨_, ⟨rfl, rfl⟩, by rw [← hn]; decide⟩, hv⟩
  · exact ⟨[.bytes [97]], ⟨.bytes [67, 78], by simp, by unfold SameName; decide⟩, by simp⟩
  · rintro k v ⟨vs, ⟨k', hm, _⟩, hv⟩
    simp only [List.mem_singleton, Prod.mk.injEq] at hm
    rw [hm.2] at hv
    cases hv

/-- A value that is not UTF-8 cannot be taken away: the difference raises when applied. -/
theorem octets_raise : ∃ a b ms e',
    diff asciiTables a b = .ok (some ms) ∧ patchAll asciiTables ms a = (e', some .unicodeError) ∧ e' = a := by
  refine ⟨⟨dn0, [(.bytes [99, 110], [.bytes [255], .bytes [97]])]⟩, ⟨dn0, [(.bytes [99, 110], [.bytes [97]])]⟩,
    [⟨.delete, .bytes [99, 110], [.bytes [255]]⟩], _, by decide +kernel, by decide +kernel, rfl⟩

/-- Comparable entries with a difference in every direction. -/
example : ∃ a b, Comparable a b ∧ ∃ ms, diff asciiTables a b = .ok (some ms) ∧ ms.length = 4 := by
  refine ⟨⟨dn0, [(.bytes [99, 110], [.bytes [97]]), (.bytes [115, 110], [.bytes [98]])]⟩,
    ⟨dn0, [(.bytes [99, 110], [.bytes [99]]), (.text ['x'], [.text ['y']])]⟩, ?_,
    [⟨.add, .text ['x'], [.text ['y']]⟩, ⟨.delete, .bytes [115, 110], [.bytes [98]]⟩, ⟨.add, .bytes [99, 110], [.bytes [99]]⟩,
      ⟨.delete, .bytes [99, 110], [.bytes [97]]⟩], by decide +kernel, rfl⟩
  refine ⟨by decide, ?_, by decide, by decide, by decide, ?_⟩
  · intro p hp q hq hs
    unfold SameName at hs
    revert p q
    decide
  · intro p hp v hv
    have : v.Ascii := by revert p v; decide
    exact ascii_decodable this

end Verif.C20
