import Verif.Lemmas.Delta
/-
C59  A modification changes the one attribute it names, in the way it says.

Proved for entries and modifications that give every attribute name in one spelling and form.  `replace_other_form` shows
that the full claim fails when an entry has an attribute under a text name and the modification names it in octets, as
every modification received from the network does.
-/
namespace Verif.C59
open Verif.Spec Verif.Delta PyStr

/-- The entry has value `v` for attribute `k`. -/
def HasValue (e : Entry) (k v : PyStr) : Prop := ∃ vs, HasAttr e k vs ∧ v ∈ vs

/-- The names in the entry and the name in the modification are ASCII; names of one attribute are the same string. -/
structure OneSpelling (e : Entry) (k : PyStr) : Prop where
  ascii : ∀ p ∈ e.attrs, p.1.Ascii
  ascii_key : k.Ascii
  spelling : ∀ p ∈ e.attrs, SameName p.1 k → p.1 = k
  spelling' : ∀ p ∈ e.attrs, ∀ q ∈ e.attrs, SameName p.1 q.1 → p.1 = q.1
  nodup : (e.attrs.map (·.1)).Nodup

/-- The names used. -/
def Names (e : Entry) (k : PyStr) (x : PyStr) : Prop := x = k ∨ x ∈ e.attrs.map (·.1)

theorem OneSpelling.coherent {e : Entry} {k : PyStr} (h : OneSpelling e k) : Coherent (Names e k) := by
  refine ⟨?_, ?_⟩
  · rintro x (rfl | hx)
    · exact h.ascii_key
    · obtain ⟨p, hp, rfl⟩ := List.mem_map.mp hx; exact h.ascii p hp
  · rintro x y (rfl | hx) (rfl | hy) hs
    · rfl
    · obtain ⟨p, hp, rfl⟩ := List.mem_map.mp hy; exact (h.spelling p hp hs.symm).symm
    · obtain ⟨p, hp, rfl⟩ := List.mem_map.mp hx; exact h.spelling p hp hs
    · obtain ⟨p, hp, rfl⟩ := List.mem_map.mp hx
      obtain ⟨q, hq, rfl⟩ := List.mem_map.mp hy
      exact h.spelling' p hp q hq hs

theorem OneSpelling.within {e : Entry} {k : PyStr} (h : OneSpelling e k) : Within (Names e k) e.attrs :=
  ⟨fun p hp => .inr (List.mem_map.mpr ⟨p, hp, rfl⟩), h.nodup⟩

/-- What an outcome says in terms of values. -/
theorem becomes_values {K : PyStr → Prop} (hK : Coherent K) {e e' : Entry} {k : PyStr} {o : Option (List PyStr)} (hk : K k)
    (he : Within K e.attrs) (h : Becomes K e e' k o) :
    (∀ x v, SameName x k → (HasValue e' x v ↔ v ∈ o.getD [])) ∧
      ∀ x vs, ¬ SameName x k → (HasAttr e' x vs ↔ HasAttr e x vs) := by
  constructor
  · intro x v hx
    constructor
    · rintro ⟨vs, ⟨k', hm, hn⟩, hv⟩
      have : k' = k := hK.unique k' k (h.within.names _ hm) hk (hn.trans hx)
      subst this
      have h2 := stored_of_mem h.within.nodup hm
      rw [h.stored, if_pos rfl] at h2
      rw [h2]; exact hv
    · intro hv
      cases o with
      | none => simp at hv
      | some vs =>
        have h2 := h.stored k
        rw [if_pos rfl] at h2
        exact ⟨vs, ⟨k, stored_mem h2, hx.symm⟩, by simpa using hv⟩
  · intro x vs hx
    have key : ∀ {a b : Entry}, Within K a.attrs → Within K b.attrs → (∀ y, y ≠ k → stored y a.attrs = stored y b.attrs) →
        HasAttr a x vs → HasAttr b x vs := by
      rintro a b ha hb hs ⟨k', hm, hn⟩
      have hne : k' ≠ k := fun h => hx (by rw [h] at hn; exact hn.symm)
      refine ⟨k', stored_mem ?_, hn⟩
      rw [← hs k' hne]
      exact stored_of_mem ha.nodup hm
    exact ⟨key h.within he (fun y hy => by rw [h.stored, if_neg hy]),
      key he h.within (fun y hy => by rw [h.stored, if_neg hy])⟩

/-- Replacing leaves exactly the given values, and no other attribute changes. -/
theorem replace_partial {U : Unicode} (hU : Sane U) {e : Entry} {k : PyStr} (h : OneSpelling e k) (vs : List PyStr) :
    ∃ e', patch U ⟨.replace, k, vs⟩ e = (e', none) ∧ e'.dn = e.dn ∧
      (∀ x v, SameName x k → (HasValue e' x v ↔ v ∈ vs)) ∧ ∀ x ws, ¬ SameName x k → (HasAttr e' x ws ↔ HasAttr e x ws) := by
  have hk : Names e k k := .inl rfl
  have hw := h.within
  have hc := h.coherent
  by_cases hvs : vs = []
  · subst hvs
    cases hs : stored k e.attrs with
    | some s =>
      have hb : Becomes (Names e k) e { e with attrs := e.attrs.erase U k } k none :=
        ⟨rfl, erase_within hw, fun x => stored_erase hU hc hw hk x⟩
      obtain ⟨h1, h2⟩ := becomes_values hc hk hw hb
      exact ⟨{ e with attrs := e.attrs.erase U k }, by simp [patch, Entry.delItem, find_eq hU hc hw hk, hs], rfl, h1, h2⟩
    | none =>
      have hb : Becomes (Names e k) e e k none := ⟨rfl, hw, fun x => by split <;> simp_all⟩
      obtain ⟨h1, h2⟩ := becomes_values hc hk hw hb
      exact ⟨_, by simp [patch, Entry.delItem, find_eq hU hc hw hk, hs], rfl, h1, h2⟩
  · have hb : Becomes (Names e k) e (e.setItem U k vs) k (some (mkSet vs)) :=
      ⟨rfl, set_within hU hc hw hk _, fun x => stored_set hU hc hw hk _ x⟩
    obtain ⟨h1, h2⟩ := becomes_values hc hk hw hb
    exact ⟨e.setItem U k vs, by simp [patch, hvs], rfl, fun x v hx => by rw [h1 x v hx]; simp [mem_mkSet], h2⟩

/-- Adding leaves the values there were and the given ones, and no other attribute changes. -/
theorem add_partial {U : Unicode} (hU : Sane U) {e : Entry} {k : PyStr} (h : OneSpelling e k) (vs : List PyStr) :
    ∃ e', patch U ⟨.add, k, vs⟩ e = (e', none) ∧ e'.dn = e.dn ∧
      (∀ x v, SameName x k → (HasValue e' x v ↔ HasValue e x v ∨ v ∈ vs)) ∧
      ∀ x ws, ¬ SameName x k → (HasAttr e' x ws ↔ HasAttr e x ws) := by
  have hk : Names e k k := .inl rfl
  obtain ⟨e', hp, hb⟩ := patch_add hU h.coherent h.within hk vs
  obtain ⟨h1, h2⟩ := becomes_values h.coherent hk h.within hb
  refine ⟨e', hp, hb.dn, fun x v hx => ?_, h2⟩
  rw [h1 x v hx]
  have h0 : Becomes (Names e k) e e k (stored k e.attrs) := ⟨rfl, h.within, fun y => by split <;> simp_all⟩
  rw [(becomes_values h.coherent hk h.within h0).1 x v hx]
  cases stored k e.attrs with
  | none => simp [mem_mkSet]
  | some s => simp [mem_update]

/-- Deleting values that are there removes exactly them, and no other attribute changes. -/
theorem delete_partial {U : Unicode} (hU : Sane U) {e : Entry} {k : PyStr} (h : OneSpelling e k) (vs : List PyStr) (hne : vs ≠ [])
    (hn : vs.Nodup) (hp : ∀ p ∈ e.attrs, p.2.Nodup) (hd : ∀ v ∈ vs, v.Decodable) (hv : ∀ v ∈ vs, HasValue e k v) :
    ∃ e', patch U ⟨.delete, k, vs⟩ e = (e', none) ∧ e'.dn = e.dn ∧
      (∀ x v, SameName x k → (HasValue e' x v ↔ HasValue e x v ∧ v ∉ vs)) ∧
      ∀ x ws, ¬ SameName x k → (HasAttr e' x ws ↔ HasAttr e x ws) := by
  have hk : Names e k k := .inl rfl
  have h0 : Becomes (Names e k) e e k (stored k e.attrs) := ⟨rfl, h.within, fun y => by split <;> simp_all⟩
  have hval := (becomes_values h.coherent hk h.within h0).1
  have hs : ∃ s, stored k e.attrs = some s := by
    obtain ⟨v, hvm⟩ := List.exists_mem_of_ne_nil vs hne
    have := (hval k v rfl).mp (hv v hvm)
    cases hs : stored k e.attrs with
    | none => simp [hs] at this
    | some s => exact ⟨s, rfl⟩
  obtain ⟨s, hs⟩ := hs
  obtain ⟨e', t, h1, hb, _, ht⟩ := patch_delete hU h.coherent h.within hk hs (hp _ (stored_mem hs)) hne hn hd
    (fun v hvm => by have := (hval k v rfl).mp (hv v hvm); rw [hs] at this; exact this)
  obtain ⟨h2, h3⟩ := becomes_values h.coherent hk h.within hb
  refine ⟨e', h1, hb.dn, fun x v hx => ?_, h3⟩
  rw [h2 x v hx, hval x v hx, hs]
  exact ht v

/-- Deleting an attribute that is there removes it, and no other attribute changes. -/
theorem delete_attribute_partial {U : Unicode} (hU : Sane U) {e : Entry} {k : PyStr} (h : OneSpelling e k)
    (ha : ∃ vs, HasAttr e k vs) :
    ∃ e', patch U ⟨.delete, k, []⟩ e = (e', none) ∧ e'.dn = e.dn ∧ (∀ x vs, SameName x k → ¬ HasAttr e' x vs) ∧
      ∀ x ws, ¬ SameName x k → (HasAttr e' x ws ↔ HasAttr e x ws) := by
  have hk : Names e k k := .inl rfl
  obtain ⟨vs, k', hm, hn⟩ := ha
  have := h.spelling _ hm hn
  simp only at this
  subst this
  obtain ⟨e', h1, hb⟩ := patch_delete_all hU h.coherent h.within hk (stored_of_mem h.nodup hm)
  refine ⟨e', h1, hb.dn, ?_, (becomes_values h.coherent hk h.within hb).2⟩
  rintro x ws hx ⟨k2, hm2, hn2⟩
  have h2 := stored_of_mem hb.within.nodup hm2
  have h3 : k2 = k' := h.coherent.unique _ _ (hb.within.names _ hm2) hk (hn2.trans hx)
  rw [hb.stored, if_pos h3] at h2
  cases h2

/-- The name of the entries below. -/
def dn0 : Dn.Dn := [[⟨['o'], ['x']⟩]]

/-- Replacing an attribute that is stored under a text name, by a modification that names it in octets, leaves the old
value: the attribute is then stored twice, and reading it by its text name gives the old value. -/
theorem replace_other_form : ∃ e k vs e' v,
    patch asciiTables ⟨.replace, k, vs⟩ e = (e', none) ∧ v ∉ vs ∧ HasValue e' k v ∧
      e'.get asciiTables (.text ['c', 'n']) = .ok (some [v]) := by
  refine ⟨⟨dn0, [(.text ['c', 'n'], [.text ['a']])]⟩, .bytes [99, 110], [.text ['b']],
    ⟨dn0, [(.text ['c', 'n'], [.text ['a']]), (.bytes [99, 110], [.text ['b']])]⟩, .text ['a'], by decide +kernel, by decide,
    ⟨[.text ['a']], ⟨.text ['c', 'n'], by simp, ?_⟩, by simp⟩, by decide +kernel⟩
  unfold SameName; decide +kernel

/-- Deleting such an attribute is rejected although the entry has it, and replacing it by nothing does nothing. -/
theorem delete_other_form : ∃ e k e' e'',
    e.hasKey asciiTables k = .ok true ∧ patch asciiTables ⟨.delete, k, []⟩ e = (e', some .keyError) ∧
      patch asciiTables ⟨.replace, k, []⟩ e = (e'', none) ∧ e'' = e := by
  refine ⟨⟨dn0, [(.text ['c', 'n'], [.text ['a']])]⟩, .bytes [99, 110], ⟨dn0, [(.text ['c', 'n'], [.text ['a']])]⟩,
    ⟨dn0, [(.text ['c', 'n'], [.text ['a']])]⟩, by decide +kernel, by decide +kernel, by decide +kernel, rfl⟩

/-- An entry and a name that meet the hypotheses. -/
example : OneSpelling ⟨dn0, [(.bytes [99, 110], [.bytes [97]]), (.text ['s', 'n'], [])]⟩ (.bytes [99, 110]) := by
  refine ⟨by decide, by decide, ?_, ?_, by decide⟩
  · intro p hp hs
    unfold SameName at hs
    revert p; decide +kernel
  · intro p hp q hq hs
    unfold SameName at hs
    revert p q; decide +kernel

end Verif.C59
