import Verif.Spec.Syntax
import Verif.Lemmas.Delta
import Verif.Lemmas.ServerSearch
/-
Edits of a connected entry and their record.
-/
namespace Verif.Syntax
open Verif.Spec Verif.Spec.Modify PyStr

variable {U : Unicode} {V : Vocabulary} {d : Attrs} {k : PyStr}

theorem Named.tail {p : PyStr × List PyStr} (h : V.Named (p :: d)) : V.Named d :=
  ⟨fun q hq => h.names q (List.mem_cons_of_mem _ hq), (List.pairwise_cons.mp h.apart).2⟩

theorem Named.head {p q : PyStr × List PyStr} (h : V.Named (p :: d)) (hq : q ∈ d) : fold p.1.toBytes ≠ fold q.1.toBytes :=
  (List.pairwise_cons.mp h.apart).1 q hq

/-- Two listings of the same attribute are the same. -/
theorem Named.unique (h : V.Named d) {p q : PyStr × List PyStr} (hp : p ∈ d) (hq : q ∈ d) (e : fold p.1.toBytes = fold q.1.toBytes) : p = q := by
  induction d with
  | nil => cases hp
  | cons x d ih =>
    rcases List.mem_cons.mp hp with rfl | hp <;> rcases List.mem_cons.mp hq with rfl | hq
    · rfl
    · exact absurd e (Named.head h hq)
    · exact absurd e.symm (Named.head h ‹p ∈ d›)
    · exact ih (Named.tail h) hp hq

theorem name_lower (hU : Sane U) {x y : PyStr} (hx : V.Name x) (hy : V.Name y) :
    x.lower U = y.lower U ↔ fold x.toBytes = fold y.toBytes := by
  rw [lower_eq_iff hU hx.ascii hy.ascii]
  refine ⟨fun h => h.2, fun h => ⟨?_, h⟩⟩
  rw [hx.kind, hy.kind, h]

/-! ### The three changes of a dictionary -/

theorem mem_set (hU : Sane U) (hd : V.Named d) (hk : V.Name k) {vs : List PyStr} {p : PyStr × List PyStr} :
    p ∈ d.set U k vs ↔ p = (k, vs) ∨ (p ∈ d ∧ fold p.1.toBytes ≠ fold k.toBytes) := by
  induction d with
  | nil => simp [Attrs.set]
  | cons q d ih =>
    have hq := hd.names q List.mem_cons_self
    simp only [Attrs.set]
    split
    · rename_i e
      have e := (name_lower hU hq hk).mp e
      rw [List.mem_cons, List.mem_cons]
      constructor
      · rintro (rfl | h)
        · exact .inl rfl
        · exact .inr ⟨.inr h, fun e' => Named.head hd h (e.trans e'.symm)⟩
      · rintro (rfl | ⟨rfl | h, hne⟩)
        · exact .inl rfl
        · exact absurd e hne
        · exact .inr h
    · rename_i e
      have e : ¬ fold q.1.toBytes = fold k.toBytes := fun h => e ((name_lower hU hq hk).mpr h)
      rw [List.mem_cons, List.mem_cons, ih (Named.tail hd)]
      constructor
      · rintro (rfl | rfl | ⟨h, hne⟩)
        · exact .inr ⟨.inl rfl, e⟩
        · exact .inl rfl
        · exact .inr ⟨.inr h, hne⟩
      · rintro (rfl | ⟨rfl | h, hne⟩)
        · exact .inr (.inl rfl)
        · exact .inl rfl
        · exact .inr (.inr ⟨h, hne⟩)

theorem set_tidy (hU : Sane U) (hd : V.Tidy d) (hk : V.Name k) {vs : List PyStr} (hv : ∀ v ∈ vs, V.value (fold k.toBytes) v) (hn : vs.Nodup) :
    V.Tidy (d.set U k vs) := by
  refine ⟨⟨fun p hp => ?_, ?_⟩, fun p hp => ?_, fun p hp => ?_⟩
  · rcases (mem_set hU hd.toNamed hk).mp hp with rfl | hp
    · exact hk
    · exact hd.names p hp.1
  · replace hd := hd.toNamed
    clear hv hn
    induction d with
    | nil => simp [Attrs.set]
    | cons q d ih =>
      have hq := hd.names q List.mem_cons_self
      simp only [Attrs.set]
      split
      · rename_i e
        have e := (name_lower hU hq hk).mp e
        rw [List.pairwise_cons]
        exact ⟨fun x hx => by rw [← e]; exact Named.head hd hx, (List.pairwise_cons.mp hd.apart).2⟩
      · rename_i e
        rw [List.pairwise_cons]
        refine ⟨fun x hx => ?_, ih (Named.tail hd)⟩
        rcases (mem_set hU (Named.tail hd) hk).mp hx with rfl | hx
        · exact fun h => e ((name_lower hU hq hk).mpr h)
        · exact Named.head hd hx.1
  · rcases (mem_set hU hd.toNamed hk).mp hp with rfl | hp
    · exact hv
    · exact hd.values p hp.1
  · rcases (mem_set hU hd.toNamed hk).mp hp with rfl | hp
    · exact hn
    · exact hd.nodup p hp.1

theorem content_set (hU : Sane U) (hd : V.Named d) (hk : V.Name k) (vs : List PyStr) (n b : Bytes) :
    content (d.set U k vs) n b ↔ if n = fold k.toBytes then ∃ v ∈ vs, v.toBytes = b else content d n b := by
  unfold content
  simp only [mem_set hU hd hk]
  split
  · rename_i e
    subst e
    constructor
    · rintro ⟨p, rfl | ⟨_, hne⟩, e, h⟩
      · exact h
      · exact absurd e hne
    · intro h
      exact ⟨_, .inl rfl, rfl, h⟩
  · rename_i e
    constructor
    · rintro ⟨p, rfl | ⟨hp, _⟩, e', h⟩
      · exact absurd e'.symm e
      · exact ⟨p, hp, e', h⟩
    · rintro ⟨p, hp, e', h⟩
      exact ⟨p, .inr ⟨hp, by rw [e']; exact e⟩, e', h⟩

theorem mem_update (hU : Sane U) (hd : V.Named d) (hk : V.Name k) {vs : List PyStr} {p : PyStr × List PyStr} :
    p ∈ d.update U k (fun _ => vs) ↔ (∃ q ∈ d, fold q.1.toBytes = fold k.toBytes ∧ p = (q.1, vs)) ∨ (p ∈ d ∧ fold p.1.toBytes ≠ fold k.toBytes) := by
  induction d with
  | nil => simp [Attrs.update]
  | cons q d ih =>
    have hq := hd.names q List.mem_cons_self
    simp only [Attrs.update]
    split
    · rename_i e
      have e := (name_lower hU hq hk).mp e
      rw [List.mem_cons, List.mem_cons]
      constructor
      · rintro (rfl | h)
        · exact .inl ⟨q, List.mem_cons_self, e, rfl⟩
        · exact .inr ⟨.inr h, fun e' => Named.head hd h (e.trans e'.symm)⟩
      · rintro (⟨x, hx, e', rfl⟩ | ⟨rfl | h, hne⟩)
        · obtain rfl := Named.unique hd hx (List.mem_cons_self (a := q)) (e'.trans e.symm)
          exact .inl rfl
        · exact absurd e hne
        · exact .inr h
    · rename_i e
      have e : ¬ fold q.1.toBytes = fold k.toBytes := fun h => e ((name_lower hU hq hk).mpr h)
      rw [List.mem_cons, List.mem_cons, ih (Named.tail hd)]
      constructor
      · rintro (rfl | ⟨x, hx, e', rfl⟩ | ⟨h, hne⟩)
        · exact .inr ⟨.inl rfl, e⟩
        · exact .inl ⟨x, List.mem_cons_of_mem _ hx, e', rfl⟩
        · exact .inr ⟨.inr h, hne⟩
      · rintro (⟨x, hx, e', rfl⟩ | ⟨rfl | h, hne⟩)
        · rcases List.mem_cons.mp hx with rfl | hx
          · exact absurd e' e
          · exact .inr (.inl ⟨x, hx, e', rfl⟩)
        · exact .inl rfl
        · exact .inr (.inr ⟨h, hne⟩)

theorem update_tidy (hU : Sane U) (hd : V.Tidy d) (hk : V.Name k) {vs : List PyStr} (hv : ∀ v ∈ vs, V.value (fold k.toBytes) v) (hn : vs.Nodup) :
    V.Tidy (d.update U k fun _ => vs) := by
  refine ⟨⟨fun p hp => ?_, ?_⟩, fun p hp => ?_, fun p hp => ?_⟩
  · rcases (mem_update hU hd.toNamed hk).mp hp with ⟨q, hq, _, rfl⟩ | hp
    · exact hd.names q hq
    · exact hd.names p hp.1
  · have h1 : (d.map (·.1)).Pairwise fun x y => fold x.toBytes ≠ fold y.toBytes := by rw [List.pairwise_map]; exact hd.apart
    have h2 : ((d.update U k fun _ => vs).map (·.1)).Pairwise fun x y => fold x.toBytes ≠ fold y.toBytes := by rw [Delta.update_names]; exact h1
    rw [List.pairwise_map] at h2
    exact h2
  · rcases (mem_update hU hd.toNamed hk).mp hp with ⟨q, hq, e, rfl⟩ | hp
    · rw [e]; exact hv
    · exact hd.values p hp.1
  · rcases (mem_update hU hd.toNamed hk).mp hp with ⟨q, hq, _, rfl⟩ | hp
    · exact hn
    · exact hd.nodup p hp.1

/-- The set under a name that is there is replaced. -/
theorem content_update (hU : Sane U) (hd : V.Named d) {old : List PyStr} (hm : (k, old) ∈ d) (vs : List PyStr) (n b : Bytes) :
    content (d.update U k fun _ => vs) n b ↔ if n = fold k.toBytes then ∃ v ∈ vs, v.toBytes = b else content d n b := by
  have hk := hd.names _ hm
  unfold content
  simp only [mem_update hU hd hk]
  split
  · rename_i e
    subst e
    constructor
    · rintro ⟨p, ⟨q, _, _, rfl⟩ | ⟨_, hne⟩, e, h⟩
      · exact h
      · exact absurd e hne
    · intro h
      exact ⟨(k, vs), .inl ⟨_, hm, rfl, rfl⟩, rfl, h⟩
  · rename_i e
    constructor
    · rintro ⟨p, ⟨q, _, hq, rfl⟩ | ⟨hp, _⟩, e', h⟩
      · exact absurd (e'.symm.trans hq) e
      · exact ⟨p, hp, e', h⟩
    · rintro ⟨p, hp, e', h⟩
      exact ⟨p, .inr ⟨hp, by rw [e']; exact e⟩, e', h⟩

/-- The values of one attribute. -/
theorem content_at (hd : V.Named d) {vs : List PyStr} (hm : (k, vs) ∈ d) (b : Bytes) : content d (fold k.toBytes) b ↔ ∃ v ∈ vs, v.toBytes = b := by
  constructor
  · rintro ⟨p, hp, e, h⟩
    obtain rfl := Named.unique hd hp hm e
    exact h
  · intro h
    exact ⟨_, hm, rfl, h⟩

theorem erase_tidy (hd : V.Tidy d) : V.Tidy (d.erase U k) := by
  have hs := Delta.erase_sub (U := U) (k := k) (d := d)
  exact ⟨⟨fun p hp => hd.names p (hs.subset hp), hd.apart.sublist hs⟩, fun p hp => hd.values p (hs.subset hp), fun p hp => hd.nodup p (hs.subset hp)⟩

/-- The attribute under a name that is there is taken out. -/
theorem content_erase (hU : Sane U) (hd : V.Named d) (hk : k.Ascii) {vs : List PyStr} (hf : d.find U k = some vs) :
    (∃ key, (key, vs) ∈ d ∧ fold key.toBytes = fold k.toBytes) ∧
    ∀ n b, content (d.erase U k) n b ↔ n ≠ fold k.toBytes ∧ content d n b := by
  induction d with
  | nil => cases hf
  | cons q d ih =>
    have hq := hd.names q List.mem_cons_self
    obtain ⟨k', vs'⟩ := q
    simp only [Attrs.find] at hf
    simp only [Attrs.erase]
    split at hf
    · rename_i e
      cases hf
      rw [if_pos e]
      have e := Match.sameName_lower hU hq.ascii hk e
      have e : fold k'.toBytes = fold k.toBytes := e
      refine ⟨⟨k', List.mem_cons_self, e⟩, fun n b => ?_⟩
      constructor
      · rintro ⟨p, hp, e', h⟩
        exact ⟨fun en => Named.head hd hp (by rw [e, e', en]), p, List.mem_cons_of_mem _ hp, e', h⟩
      · rintro ⟨hne, p, hp, e', h⟩
        rcases List.mem_cons.mp hp with rfl | hp
        · exact absurd (e'.symm.trans e) hne
        · exact ⟨p, hp, e', h⟩
    · rename_i e
      rw [if_neg e]
      obtain ⟨⟨key, hm, hkey⟩, h2⟩ := ih (Named.tail hd) hf
      refine ⟨⟨key, List.mem_cons_of_mem _ hm, hkey⟩, fun n b => ?_⟩
      have hne : fold k'.toBytes ≠ fold k.toBytes := by
        rw [← hkey]; exact Named.head hd hm
      have hc : ∀ (x : PyStr × List PyStr) (l : Attrs), content (x :: l) n b ↔ (fold x.1.toBytes = n ∧ ∃ v ∈ x.2, v.toBytes = b) ∨ content l n b := by
        intro x l
        unfold content
        simp
      rw [hc, hc, h2 n b]
      constructor
      · rintro (h | h)
        · exact ⟨by rw [← h.1]; exact hne, .inl h⟩
        · exact ⟨h.1, .inr h.2⟩
      · rintro ⟨h, h' | h'⟩
        · exact .inl h'
        · exact .inr ⟨h, h'⟩

/-! ### Access -/

theorem findItem_mem {p : PyStr × List PyStr} (h : findItem U k d = some p) : p ∈ d ∧ p.1.lower U = k.lower U := by
  induction d with
  | nil => cases h
  | cons q d ih =>
    obtain ⟨k', vs⟩ := q
    simp only [findItem] at h
    split at h
    · rename_i e; cases h; exact ⟨List.mem_cons_self, e⟩
    · exact ⟨List.mem_cons_of_mem _ (ih h).1, (ih h).2⟩

theorem target_mem {s : St} {p : PyStr × List PyStr} (h : target U s k = .ok p) :
    p ∈ s.attrs ∧ s.deleted = false ∧ ∃ y : PyStr, y.toBytes = k.toBytes ∧ p.1.lower U = y.lower U := by
  unfold target at h
  split at h
  · cases h
  · rename_i hdel
    split at h
    · cases h
    · rename_i ks hks
      obtain ⟨y, rfl, hy, _⟩ := getStrings_ok hks
      split at h
      · cases h
      · rename_i q hf
        cases h
        simp only [firstItem] at hf
        refine ⟨?_, by simpa using hdel, ?_⟩
        · split at hf
          · rename_i h1
            cases hf
            exact (findItem_mem h1).1
          · split at hf
            · rename_i h1
              cases hf
              exact (findItem_mem h1).1
            · cases hf
        · split at hf
          · rename_i h1
            cases hf
            exact ⟨k, rfl, (findItem_mem h1).2⟩
          · split at hf
            · rename_i h1
              cases hf
              exact ⟨y, hy, (findItem_mem h1).2⟩
            · cases hf

theorem target_name (hU : Sane U) {s : St} (hd : V.Tidy s.attrs) (hk : k.Ascii) {p : PyStr × List PyStr} (h : target U s k = .ok p) :
    fold p.1.toBytes = fold k.toBytes := by
  obtain ⟨h1, _, y, hy, e⟩ := target_mem h
  have hyA : y.Ascii := by unfold Ascii; rw [hy]; exact hk
  have := Match.sameName_lower hU (hd.names p h1).ascii hyA e
  unfold SameName at this
  rw [hy] at this
  exact this

/-! ### Edits -/

/-- What became of an entry and its record by an edit. -/
structure Edited (V : Vocabulary) (s s' : St) (e : Edit) (m : Mod) : Prop where
  dn : s'.dn = s.dn
  remote : s'.remote = s.remote
  alive : s'.deleted = s.deleted
  complete : s'.complete = s.complete
  journal : s'.journal = s.journal ++ [m]
  tidy : V.Tidy s'.attrs
  effect : Same ((change m).effect (content s.attrs)) (content s'.attrs)
  accepted : Sensible (content s.attrs) e → (change m).Accepted (content s.attrs)

theorem bytes_nodup (hV : V.Fine) {n : Bytes} {vs : List PyStr} (hv : ∀ v ∈ vs, V.value n v) (hn : vs.Nodup) : (vs.map PyStr.toBytes).Nodup := by
  induction vs with
  | nil => exact List.nodup_nil
  | cons a vs ih =>
    rw [List.nodup_cons] at hn
    rw [List.map_cons, List.nodup_cons]
    refine ⟨fun h => ?_, ih (fun v hv' => hv v (List.mem_cons_of_mem _ hv')) hn.2⟩
    obtain ⟨w, hw, e⟩ := List.mem_map.mp h
    have := hV.oneForm n w a (hv w (List.mem_cons_of_mem _ hw)) (hv a List.mem_cons_self) e
    exact hn.1 (this ▸ hw)

/-- A value of the vocabulary is added, unless it is there. -/
theorem add_value (hV : V.Fine) {n : Bytes} {vs : List PyStr} {v : PyStr} (hvs : ∀ v ∈ vs, V.value n v) (hv : V.value n v) :
    AttributeSet.add vs v = .ok (if v ∈ vs then vs else v :: vs) := by
  obtain ⟨l, hl⟩ := getStrings_total.mp (hV.decodable n v hv)
  obtain ⟨y, rfl, hy, hk⟩ := getStrings_ok hl
  have hyn : y ∉ vs := fun h => by
    have := hV.oneForm n y v (hvs y h) hv hy
    subst this
    cases hy : y.isText <;> simp [hy] at hk
  by_cases hm : v ∈ vs <;> simp [AttributeSet.add, hl, bind, Except.bind, AttributeSet.firstIn, hm, hyn, pure, Except.pure]

/-- An edit of one set: the new values `t` are what the recorded change makes of the old ones. -/
theorem edited_put (hU : Sane U) {s : St} {e : Edit} {kind : ModKind} {old t vs : List PyStr} {r : St} (hd : V.Tidy s.attrs) (hm : (k, old) ∈ s.attrs)
    (ht : ∀ v ∈ t, V.value (fold k.toBytes) v) (hn : t.Nodup)
    (hr : r = { s with attrs := s.attrs.update U k fun _ => t, journal := s.journal ++ [⟨kind, k, vs⟩] })
    (he : ∀ b, (∃ v ∈ t, v.toBytes = b) ↔ (change ⟨kind, k, vs⟩).effect (content s.attrs) (fold k.toBytes) b)
    (ha : Sensible (content s.attrs) e → (change ⟨kind, k, vs⟩).Accepted (content s.attrs)) :
    Edited V s r e ⟨kind, k, vs⟩ := by
  subst hr
  have hk := hd.names _ hm
  refine ⟨rfl, rfl, rfl, rfl, rfl, update_tidy hU hd hk ht hn, fun n b => ?_, ha⟩
  rw [content_update hU hd.toNamed hm]
  split
  · rename_i e; subst e; exact (he b).symm
  · rename_i hne
    unfold Change.effect
    rw [if_neg]
    exact hne

theorem effect_at (kind : ModKind) (vs : List PyStr) (c : Content) (b : Bytes) : (change ⟨kind, k, vs⟩).effect c (fold k.toBytes) b ↔
    match kind with
    | .add => c (fold k.toBytes) b ∨ b ∈ vs.map PyStr.toBytes
    | .delete => vs.map PyStr.toBytes ≠ [] ∧ c (fold k.toBytes) b ∧ b ∉ vs.map PyStr.toBytes
    | .replace => b ∈ vs.map PyStr.toBytes := by
  have e : fold k.toBytes = fold (change ⟨kind, k, vs⟩).attr := rfl
  unfold Change.effect
  rw [if_pos e]
  exact Iff.rfl

/-- An edit either raises and changes nothing, or is recorded as a change with just this effect. -/
theorem edit_edited (hU : Sane U) (hV : V.Fine) {s : St} {e : Edit} (hd : V.Tidy s.attrs) (he : V.Speaks e) :
    ((edit U s e).1 = s ∧ (edit U s e).2 ≠ none) ∨ ∃ m, (edit U s e).2 = none ∧ Edited V s (edit U s e).1 e m := by
  cases e with
  | add k v =>
    simp only [edit]
    cases hp : target U s k with
    | error x => exact .inl ⟨rfl, fun h => by cases h⟩
    | ok p =>
      obtain ⟨key, vs⟩ := p
      have hn : fold key.toBytes = fold k.toBytes := target_name hU hd he.1 hp
      have hm := (target_mem hp).1
      have hv : V.value (fold key.toBytes) v := hn ▸ he.2
      have hvs := hd.values _ hm
      have ha := add_value hV hvs hv
      refine .inr ⟨⟨.add, key, [v]⟩, ?_⟩
      simp only [addValue, ha]
      refine ⟨trivial, edited_put hU hd hm (t := if v ∈ vs then vs else v :: vs) ?_ ?_ rfl ?_ ?_⟩
      · intro w hw
        split at hw
        · exact hvs w hw
        · rcases List.mem_cons.mp hw with rfl | hw
          · exact hv
          · exact hvs w hw
      · split
        · exact hd.nodup _ hm
        · rename_i hnm; exact List.nodup_cons.mpr ⟨hnm, hd.nodup _ hm⟩
      · intro b
        rw [effect_at]
        show _ ↔ content s.attrs (fold key.toBytes) b ∨ b ∈ [v].map PyStr.toBytes
        rw [content_at hd.toNamed hm]
        split
        · rename_i hmv
          simp only [List.map_cons, List.map_nil, List.mem_singleton]
          exact ⟨.inl, fun h => h.elim id fun h => ⟨v, hmv, h.symm⟩⟩
        · simp only [List.map_cons, List.map_nil, List.mem_cons, List.not_mem_nil, or_false, exists_eq_or_imp]
          exact ⟨fun h => h.elim (fun h => .inr h.symm) .inl, fun h => h.elim .inr fun h => .inl h.symm⟩
      · intro hs
        refine ⟨by simp [change], by simp [change], fun b hb => ?_⟩
        simp only [change, List.map_cons, List.map_nil, List.mem_singleton] at hb
        subst hb
        show ¬ content s.attrs (fold key.toBytes) _
        rw [hn]; exact hs
  | update k vs =>
    simp only [edit]
    cases hp : target U s k with
    | error x => exact .inl ⟨rfl, fun h => by cases h⟩
    | ok p =>
      obtain ⟨key, old⟩ := p
      have hn : fold key.toBytes = fold k.toBytes := target_name hU hd he.1 hp
      have hm := (target_mem hp).1
      have hv : ∀ v ∈ vs, V.value (fold key.toBytes) v := hn ▸ he.2
      have hvs := hd.values _ hm
      refine .inr ⟨⟨.add, key, mkSet vs⟩, rfl, edited_put hU hd hm (t := AttributeSet.update old vs) ?_ (Delta.update_nodup (hd.nodup _ hm)) rfl ?_ ?_⟩
      · intro w hw
        exact (Delta.mem_update.mp hw).elim (hvs w) (hv w)
      · intro b
        rw [effect_at]
        show _ ↔ content s.attrs (fold key.toBytes) b ∨ b ∈ (mkSet vs).map PyStr.toBytes
        rw [content_at hd.toNamed hm]
        simp only [Delta.mem_update, List.mem_map, Delta.mem_mkSet]
        constructor
        · rintro ⟨v, h | h, e⟩
          · exact .inl ⟨v, h, e⟩
          · exact .inr ⟨v, h, e⟩
        · rintro (⟨v, h, e⟩ | ⟨v, h, e⟩)
          · exact ⟨v, .inl h, e⟩
          · exact ⟨v, .inr h, e⟩
      · intro hs
        refine ⟨?_, ?_, fun b hb => ?_⟩
        · intro h
          obtain ⟨v, hv'⟩ := List.exists_mem_of_ne_nil vs hs.1
          have hv' := Delta.mem_mkSet.mpr hv'
          have h : (mkSet vs).map PyStr.toBytes = [] := h
          rw [List.map_eq_nil_iff] at h
          rw [h] at hv'; cases hv'
        · exact bytes_nodup hV (fun v h => hv v (Delta.mem_mkSet.mp h)) (Delta.mkSet_nodup vs)
        · obtain ⟨v, hv', rfl⟩ := List.mem_map.mp hb
          show ¬ content s.attrs (fold key.toBytes) _
          rw [hn]; exact hs.2 v (Delta.mem_mkSet.mp hv')
  | remove k v =>
    simp only [edit]
    cases hp : target U s k with
    | error x => exact .inl ⟨rfl, fun h => by cases h⟩
    | ok p =>
      obtain ⟨key, vs⟩ := p
      have hm := (target_mem hp).1
      have hvs := hd.values _ hm
      simp only [removeValue]
      by_cases hmv : v ∈ vs
      rotate_left
      · rw [if_neg hmv]
        exact .inl ⟨rfl, fun h => by cases h⟩
      · rw [if_pos hmv]
        cases hc : canRemove s key v with
        | some x => exact .inl ⟨rfl, fun h => by cases h⟩
        | none =>
          have hr := Delta.remove_mem (hV.decodable _ _ (hvs v hmv)) hmv
          have hnd := hd.nodup _ hm
          refine .inr ⟨⟨.delete, key, [v]⟩, ?_⟩
          simp only [hr]
          refine ⟨trivial, edited_put hU hd hm (t := vs.erase v) ?_ ?_ rfl ?_ ?_⟩
          · intro w hw
            exact hvs w (List.mem_of_mem_erase hw)
          · exact hnd.erase v
          · intro b
            rw [effect_at]
            show _ ↔ [v].map PyStr.toBytes ≠ [] ∧ content s.attrs (fold key.toBytes) b ∧ b ∉ [v].map PyStr.toBytes
            rw [content_at hd.toNamed hm]
            simp only [List.map_cons, List.map_nil, List.mem_singleton]
            constructor
            · rintro ⟨w, hw, rfl⟩
              rw [List.Nodup.mem_erase_iff hnd] at hw
              exact ⟨by simp, ⟨w, hw.2, rfl⟩, fun h => hw.1 (hV.oneForm _ w v (hvs w hw.2) (hvs v hmv) h)⟩
            · rintro ⟨_, ⟨w, hw, rfl⟩, hne⟩
              exact ⟨w, (List.Nodup.mem_erase_iff hnd).mpr ⟨fun h => hne (h ▸ rfl), hw⟩, rfl⟩
          · intro _
            have hc : content s.attrs (fold key.toBytes) v.toBytes := (content_at hd.toNamed hm _).mpr ⟨v, hmv, rfl⟩
            refine ⟨⟨_, hc⟩, by simp [change], fun b hb => ?_⟩
            simp only [change, List.map_cons, List.map_nil, List.mem_singleton] at hb
            subst hb
            exact hc
  | clear k =>
    simp only [edit]
    cases hp : target U s k with
    | error x => exact .inl ⟨rfl, fun h => by cases h⟩
    | ok p =>
      obtain ⟨key, vs⟩ := p
      have hn : fold key.toBytes = fold k.toBytes := target_name hU hd he hp
      have hm := (target_mem hp).1
      simp only [clearValues]
      cases hc : canRemoveAll s key with
      | some x => exact .inl ⟨rfl, fun h => by cases h⟩
      | none =>
        refine .inr ⟨⟨.delete, key, []⟩, rfl, edited_put hU hd hm (t := []) (fun v h => by cases h) List.nodup_nil rfl ?_ ?_⟩
        · intro b
          rw [effect_at]
          simp [change]
        · intro hs
          refine ⟨?_, by simp [change], fun b hb => by simp [change] at hb⟩
          show ∃ b, content s.attrs (fold key.toBytes) b
          rw [hn]; exact hs
  | set k vs =>
    simp only [edit, setItem]
    cases hc : canRemoveAll s k with
    | some x => exact .inl ⟨rfl, fun h => by cases h⟩
    | none =>
      have hv : ∀ v ∈ mkSet vs, V.value (fold k.toBytes) v := fun v h => he.2 v (Delta.mem_mkSet.mp h)
      refine .inr ⟨⟨.replace, k, mkSet vs⟩, rfl, rfl, rfl, rfl, rfl, rfl, set_tidy hU hd he.1 hv (Delta.mkSet_nodup vs), fun n b => ?_, fun _ => ?_⟩
      · show _ ↔ content (s.attrs.set U k (mkSet vs)) n b
        rw [content_set hU hd.toNamed he.1]
        unfold Change.effect
        show (if n = fold k.toBytes then _ else _) ↔ _
        split
        · simp [change]
        · exact Iff.rfl
      · exact bytes_nodup hV hv (Delta.mkSet_nodup vs)
  | del k =>
    simp only [edit, delItem]
    cases hc : canRemoveAll s k with
    | some x => exact .inl ⟨rfl, fun h => by cases h⟩
    | none =>
      cases hf : s.attrs.find U k with
      | none => exact .inl ⟨rfl, fun h => by cases h⟩
      | some vs =>
        refine .inr ⟨⟨.delete, k, []⟩, rfl, rfl, rfl, rfl, rfl, rfl, erase_tidy hd, fun n b => ?_, fun hs => ?_⟩
        · show _ ↔ content (s.attrs.erase U k) n b
          rw [(content_erase hU hd.toNamed he hf).2]
          unfold Change.effect
          show (if n = fold k.toBytes then _ else _) ↔ _
          split
          · rename_i e; simp [change, e]
          · rename_i e; simp [e]
        · exact ⟨hs, by simp [change], fun b hb => by simp [change] at hb⟩

/-! ### Edits that work -/

theorem findItem_none (h : findItem U k d = none) : ∀ p ∈ d, p.1.lower U ≠ k.lower U := by
  induction d with
  | nil => intro p hp; cases hp
  | cons q d ih =>
    obtain ⟨k', vs⟩ := q
    simp only [findItem] at h
    split at h
    · cases h
    · rename_i e
      intro p hp
      rcases List.mem_cons.mp hp with rfl | hp
      · exact e
      · exact ih h p hp

/-- Every attribute can be reached, through any spelling. -/
theorem target_found (hU : Sane U) {s : St} (hd : V.Named s.attrs) (ha : s.deleted = false) (hk : k.Ascii) {p : PyStr × List PyStr} (hp : p ∈ s.attrs)
    (hn : fold p.1.toBytes = fold k.toBytes) : target U s k = .ok p := by
  obtain ⟨l, hl⟩ := getStrings_total.mp (ascii_decodable hk)
  have hw := hl
  obtain ⟨y, rfl, hy, hyt⟩ := getStrings_ok hl
  have hyA : y.Ascii := by unfold Ascii; rw [hy]; exact hk
  have hpA := (hd.names p hp).ascii
  have hex : p.1.lower U = k.lower U ∨ p.1.lower U = y.lower U := by
    rw [lower_eq_iff hU hpA hk, lower_eq_iff hU hpA hyA]
    have h1 : lowerBytes p.1.toBytes = lowerBytes k.toBytes := hn
    rw [hy, h1, hyt]
    cases p.1.isText <;> cases k.isText <;> simp
  have huniq : ∀ q ∈ s.attrs, (q.1.lower U = k.lower U ∨ q.1.lower U = y.lower U) → q = p := by
    intro q hq h
    refine Named.unique hd hq hp ?_
    rw [hn]
    rcases h with h | h
    · exact Match.sameName_lower hU (hd.names q hq).ascii hk h
    · have := Match.sameName_lower hU (hd.names q hq).ascii hyA h
      unfold SameName at this
      rw [hy] at this
      exact this
  have hf : firstItem U s.attrs [k, y] = some p := by
    simp only [firstItem]
    cases h1 : findItem U k s.attrs with
    | some q => exact congrArg some (huniq q (findItem_mem h1).1 (.inl (findItem_mem h1).2))
    | none =>
      cases h2 : findItem U y s.attrs with
      | some q => exact congrArg some (huniq q (findItem_mem h2).1 (.inr (findItem_mem h2).2))
      | none =>
        rcases hex with h | h
        · exact absurd h (findItem_none h1 p hp)
        · exact absurd h (findItem_none h2 p hp)
  unfold target
  rw [ha, hw]
  simp only [hf]
  rfl

end Verif.Syntax
