import Verif.Lemmas.Syntax
import Verif.Lemmas.Delta
/-
What a modification does to an entry whose names and values are octets.
-/
namespace Verif.Delta
open Verif.Spec Verif.Spec.Modify Verif.Syntax PyStr

variable {U : Unicode} {e : Entry}

theorem octets_name {b : Bytes} (h : Utf8.AsciiBytes b) : rawOctets.Name (.bytes b) := ⟨h, rfl⟩

theorem octet_of {n : Bytes} {v : PyStr} (h : rawOctets.value n v) : v = .bytes v.toBytes := by
  cases v with
  | bytes b => rfl
  | text s => cases h

/-- The attribute is there, under some spelling. -/
theorem there {d : Attrs} {n b : Bytes} (h : content d n b) : ∃ p ∈ d, fold p.1.toBytes = n := by
  obtain ⟨p, hp, e, _⟩ := h
  exact ⟨p, hp, e⟩

theorem find_there (hU : Sane U) {d : Attrs} (hd : rawOctets.Named d) {k : Bytes} (hk : Utf8.AsciiBytes k) {p : PyStr × List PyStr} (hp : p ∈ d)
    (hn : fold p.1.toBytes = fold k) : d.find U (.bytes k) = some p.2 := by
  induction d with
  | nil => cases hp
  | cons q d ih =>
    obtain ⟨k', vs⟩ := q
    simp only [Attrs.find]
    have hq := hd.names _ List.mem_cons_self
    split
    · rename_i e
      have e := (name_lower hU hq (octets_name hk)).mp e
      have := Named.unique hd hp List.mem_cons_self (hn.trans e.symm)
      rw [this]
    · rename_i e
      rcases List.mem_cons.mp hp with rfl | hp
      · exact absurd ((name_lower hU hq (octets_name hk)).mpr hn) e
      · exact ih (Named.tail hd) hp

theorem find_absent (hU : Sane U) {d : Attrs} (hd : rawOctets.Named d) {k : Bytes} (hk : Utf8.AsciiBytes k) {y : PyStr} (hy : y.toBytes = k)
    (h : ∀ p ∈ d, fold p.1.toBytes ≠ fold k) : d.find U y = none := by
  induction d with
  | nil => rfl
  | cons q d ih =>
    obtain ⟨k', vs⟩ := q
    simp only [Attrs.find]
    have hq := hd.names _ List.mem_cons_self
    rw [if_neg, ih (Named.tail hd) fun p hp => h p (List.mem_cons_of_mem _ hp)]
    intro e
    have hyA : y.Ascii := by unfold Ascii; rw [hy]; exact hk
    have := Match.sameName_lower hU hq.ascii hyA e
    unfold SameName at this
    rw [hy] at this
    exact h _ List.mem_cons_self this

/-- The keys under which an attribute is looked for. -/
theorem keys {k : Bytes} (hk : Utf8.AsciiBytes k) : ∃ y : PyStr, (PyStr.bytes k).getStrings = .ok [.bytes k, y] ∧ y.toBytes = k := by
  obtain ⟨l, hl⟩ := getStrings_total.mp (ascii_decodable (x := .bytes k) hk)
  have hw := hl
  obtain ⟨y, rfl, hy, _⟩ := getStrings_ok hl
  exact ⟨y, hw, hy⟩

/-- A set that is there is changed. -/
theorem changeItem_there (hU : Sane U) (hd : rawOctets.Named e.attrs) {k : Bytes} (hk : Utf8.AsciiBytes k) {p : PyStr × List PyStr} (hp : p ∈ e.attrs)
    (hn : fold p.1.toBytes = fold k) {f : List PyStr → Py (List PyStr)} {t : List PyStr} (hf : f p.2 = .ok t) :
    e.changeItem U (.bytes k) f = ({ e with attrs := e.attrs.update U (.bytes k) fun _ => t }, none) := by
  obtain ⟨y, h1, _⟩ := keys hk
  have h2 := find_there hU hd hk hp hn
  simp [Entry.changeItem, h1, Entry.formOf, h2, hf]

/-- `content_update` for any spelling of the name. -/
theorem content_update' (hU : Sane U) {V : Vocabulary} {d : Attrs} (hd : V.Named d) {k : PyStr} (hk : V.Name k) {p : PyStr × List PyStr} (hp : p ∈ d)
    (hn : fold p.1.toBytes = fold k.toBytes) (vs : List PyStr) (n b : Bytes) :
    content (d.update U k fun _ => vs) n b ↔ if n = fold k.toBytes then ∃ v ∈ vs, v.toBytes = b else content d n b := by
  unfold content
  simp only [Syntax.mem_update hU hd hk]
  split
  · rename_i e
    subst e
    constructor
    · rintro ⟨q, ⟨x, _, _, rfl⟩ | ⟨_, hne⟩, e, h⟩
      · exact h
      · exact absurd e hne
    · intro h
      exact ⟨(p.1, vs), .inl ⟨p, hp, hn, rfl⟩, hn, h⟩
  · rename_i e
    constructor
    · rintro ⟨q, ⟨x, _, hq, rfl⟩ | ⟨hp, _⟩, e', h⟩
      · exact absurd (e'.symm.trans hq) e
      · exact ⟨q, hp, e', h⟩
    · rintro ⟨q, hp, e', h⟩
      exact ⟨q, .inr ⟨hp, by rw [e']; exact e⟩, e', h⟩

theorem at_name {V : Vocabulary} {d : Attrs} (hd : V.Named d) {n : Bytes} {p : PyStr × List PyStr} (hp : p ∈ d)
    (hn : fold p.1.toBytes = n) (b : Bytes) : content d n b ↔ ∃ v ∈ p.2, v.toBytes = b := by
  subst hn
  exact content_at hd hp b

/-- Some octets are removed, one by one. -/
theorem removeLoop_octets (hU : Sane U) {k : Bytes} (hk : Utf8.AsciiBytes k) (bs : List Bytes) (hn : bs.Nodup)
    (hdec : ∀ b ∈ bs, (PyStr.bytes b).Decodable) (hd : rawOctets.Tidy e.attrs) (hc : ∀ b ∈ bs, content e.attrs (fold k) b) :
    ∃ e', removeLoop U (.bytes k) (bs.map .bytes) e = (e', none) ∧ rawOctets.Tidy e'.attrs ∧ e'.dn = e.dn ∧
      ∀ n b, content e'.attrs n b ↔ content e.attrs n b ∧ (n = fold k → b ∉ bs) := by
  induction bs generalizing e with
  | nil => exact ⟨e, rfl, hd, rfl, fun n b => by simp⟩
  | cons x bs ih =>
    obtain ⟨hx, hn⟩ := List.nodup_cons.mp hn
    obtain ⟨p, hp, hpn, v, hv, hvx⟩ := hc x List.mem_cons_self
    have hvb : v = .bytes x := by rw [octet_of (hd.values p hp v hv), hvx]
    subst hvb
    have hrem := remove_mem (hdec x List.mem_cons_self) hv
    have hstep := changeItem_there hU hd.toNamed hk hp hpn (f := fun s => AttributeSet.remove s (.bytes x)) hrem
    have hnd : (p.2.erase (.bytes x)).Nodup := (hd.nodup p hp).erase _
    have hsub : ∀ u ∈ p.2.erase (.bytes x), u ∈ p.2 := fun u hu => List.mem_of_mem_erase hu
    have hd1 : rawOctets.Tidy (e.attrs.update U (.bytes k) fun _ => p.2.erase (.bytes x)) := by
      refine update_tidy hU hd (octets_name hk) (fun u hu => ?_) hnd
      have := hd.values p hp u (hsub u hu)
      rw [hpn] at this
      exact this
    have hcont : ∀ n b, content (e.attrs.update U (.bytes k) fun _ => p.2.erase (.bytes x)) n b ↔
        content e.attrs n b ∧ (n = fold k → b ≠ x) := by
      intro n b
      rw [content_update' hU hd.toNamed (octets_name hk) hp hpn]
      split
      · rename_i en
        have en : n = fold k := en
        rw [en, at_name hd.toNamed hp hpn]
        constructor
        · rintro ⟨u, hu, rfl⟩
          refine ⟨⟨u, hsub u hu, rfl⟩, fun _ h => ?_⟩
          have h1 : u = .bytes x := by rw [octet_of (hd.values p hp u (hsub u hu)), h]
          rw [h1] at hu
          exact absurd hu ((hd.nodup p hp).not_mem_erase)
        · rintro ⟨⟨u, hu, rfl⟩, hne⟩
          refine ⟨u, ?_, rfl⟩
          rw [(hd.nodup p hp).mem_erase_iff]
          exact ⟨fun h => hne rfl (by rw [h]; rfl), hu⟩
      · rename_i en
        have en : n ≠ fold k := en
        exact ⟨fun h => ⟨h, fun h' => absurd h' en⟩, fun h => h.1⟩
    obtain ⟨e', h1, h2, h3, h4⟩ := ih (e := { e with attrs := e.attrs.update U (.bytes k) fun _ => p.2.erase (.bytes x) }) hn
      (fun b hb => hdec b (List.mem_cons_of_mem _ hb)) hd1 (fun b hb => by
        rw [hcont]
        exact ⟨hc b (List.mem_cons_of_mem _ hb), fun _ h => hx (h ▸ hb)⟩)
    refine ⟨e', ?_, h2, h3, fun n b => ?_⟩
    · simp only [List.map_cons, removeLoop, hstep]
      exact h1
    · rw [h4, hcont]
      simp only [List.mem_cons, not_or]
      constructor
      · rintro ⟨⟨a, b'⟩, c⟩; exact ⟨a, fun h => ⟨b' h, c h⟩⟩
      · rintro ⟨a, b'⟩; exact ⟨⟨a, fun h => (b' h).1⟩, fun h => (b' h).2⟩

theorem octets_values (n : Bytes) (bs : List Bytes) : ∀ v ∈ bs.map PyStr.bytes, rawOctets.value n v := by
  intro v hv
  obtain ⟨b, _, rfl⟩ := List.mem_map.mp hv
  rfl

theorem map_bytes_nodup {bs : List Bytes} (h : bs.Nodup) : (bs.map PyStr.bytes).Nodup := by
  rw [List.Nodup, List.pairwise_map]
  exact List.Pairwise.imp (fun hne h => hne (PyStr.bytes.inj h)) h

/-- What `patch` is given for a change that came over the wire. -/
def modFor (m : Change) : Mod := ⟨m.kind, .bytes m.attr, mkSet (m.values.map .bytes)⟩

theorem mkSet_of_nodup {l : List PyStr} (h : l.Nodup) : (mkSet l).Perm l :=
  (List.perm_ext_iff_of_nodup (mkSet_nodup l) h).mpr fun _ => mem_mkSet

theorem perm_map_bytes {l : List PyStr} {bs : List Bytes} (h : l.Perm (bs.map .bytes)) : ∃ cs : List Bytes, l = cs.map PyStr.bytes ∧ cs.Perm bs := by
  refine ⟨l.map PyStr.toBytes, ?_, ?_⟩
  · rw [List.map_map]
    have : ∀ v ∈ l, (PyStr.bytes ∘ PyStr.toBytes) v = v := by
      intro v hv
      obtain ⟨b, _, rfl⟩ := List.mem_map.mp (h.mem_iff.mp hv)
      rfl
    rw [List.map_congr_left this, List.map_id']
  · have := h.map PyStr.toBytes
    rw [List.map_map] at this
    have e : (PyStr.toBytes ∘ PyStr.bytes) = id := rfl
    rw [e, List.map_id] at this
    exact this

/-- One change that a server has to accept is carried out. -/
theorem patch_effect (hU : Sane U) (hd : rawOctets.Tidy e.attrs) (m : Change) (hk : Utf8.AsciiBytes m.attr)
    (hdec : m.kind = .delete → ∀ b ∈ m.values, (PyStr.bytes b).Decodable) (hacc : m.Accepted (content e.attrs)) :
    ∃ e', patch U (modFor m) e = (e', none) ∧ rawOctets.Tidy e'.attrs ∧ e'.dn = e.dn ∧
      Same (content e'.attrs) (m.effect (content e.attrs)) := by
  obtain ⟨kind, attr, values⟩ := m
  have hname := octets_name hk
  have hset : (∀ v, v ∈ mkSet (values.map PyStr.bytes) ↔ v ∈ values.map PyStr.bytes) := fun v => mem_mkSet
  have hval : ∀ v ∈ mkSet (values.map PyStr.bytes), rawOctets.value (fold (PyStr.bytes attr).toBytes) v := fun v hv =>
    octets_values _ values v (mem_mkSet.mp hv)
  have hmem : ∀ b, (∃ v ∈ mkSet (values.map PyStr.bytes), v.toBytes = b) ↔ b ∈ values := by
    intro b
    constructor
    · rintro ⟨v, hv, rfl⟩
      obtain ⟨b, hb, rfl⟩ := List.mem_map.mp (mem_mkSet.mp hv)
      exact hb
    · intro hb
      exact ⟨.bytes b, mem_mkSet.mpr (List.mem_map.mpr ⟨b, hb, rfl⟩), rfl⟩
  -- storing the values under the name
  have store : rawOctets.Tidy (e.setItem U (.bytes attr) (mkSet (values.map PyStr.bytes))).attrs ∧
      ∀ n b, content (e.setItem U (.bytes attr) (mkSet (values.map PyStr.bytes))).attrs n b ↔
        if n = fold attr then b ∈ values else content e.attrs n b := by
    refine ⟨set_tidy hU hd hname (fun v hv => hval v (mem_mkSet.mp hv)) (mkSet_nodup _), fun n b => ?_⟩
    show content (e.attrs.set U (.bytes attr) (mkSet _)) n b ↔ _
    rw [content_set hU hd.toNamed hname]
    show (if n = fold attr then _ else _) ↔ _
    split
    · rw [← hmem b]
      simp only [mem_mkSet]
    · exact Iff.rfl
  rw [show modFor ⟨kind, attr, values⟩ = ⟨kind, .bytes attr, mkSet (values.map .bytes)⟩ from rfl]
  cases kind with
  | replace =>
    simp only [patch]
    by_cases hv : mkSet (values.map PyStr.bytes) = []
    · have hv0 : values = [] := by
        cases values with
        | nil => rfl
        | cons b l =>
          have : PyStr.bytes b ∈ mkSet ((b :: l).map PyStr.bytes) := mem_mkSet.mpr (by simp)
          rw [hv] at this; cases this
      subst hv0
      simp only [if_pos hv]
      cases hf : e.attrs.find U (.bytes attr) with
      | some vs =>
        obtain ⟨_, h2⟩ := content_erase hU hd.toNamed (k := .bytes attr) hk hf
        refine ⟨{ e with attrs := e.attrs.erase U (.bytes attr) }, by simp [Entry.delItem, hf], erase_tidy hd, rfl, fun n b => ?_⟩
        rw [h2]
        show n ≠ fold attr ∧ _ ↔ (if n = fold attr then b ∈ [] else _)
        split <;> simp_all
      | none =>
        refine ⟨e, by simp [Entry.delItem, hf], hd, rfl, fun n b => ?_⟩
        show _ ↔ (if n = fold attr then b ∈ [] else _)
        split
        · rename_i en
          subst en
          constructor
          · intro h
            obtain ⟨p, hp, hn⟩ := there h
            rw [find_there hU hd.toNamed hk hp hn] at hf
            cases hf
          · intro h; cases h
        · exact Iff.rfl
    · simp only [if_neg hv]
      exact ⟨_, rfl, store.1, rfl, fun n b => by rw [store.2]; rfl⟩
  | add =>
    simp only [patch]
    by_cases hex : ∃ p ∈ e.attrs, fold p.1.toBytes = fold attr
    · obtain ⟨p, hp, hn⟩ := hex
      obtain ⟨y, h1, _⟩ := keys hk
      have hf := find_there hU hd.toNamed hk hp hn
      have hh : e.hasKey U (.bytes attr) = .ok true := by
        simp [Entry.hasKey, Entry.get, h1, Entry.firstOf, hf, bind, Except.bind, pure, Except.pure]
      simp only [hh]
      rw [changeItem_there hU hd.toNamed hk hp hn (t := AttributeSet.update p.2 (mkSet (values.map PyStr.bytes))) rfl]
      refine ⟨_, rfl, update_tidy hU hd hname (fun v hv => ?_) (update_nodup (hd.nodup p hp)), rfl, fun n b => ?_⟩
      · rcases Delta.mem_update.mp hv with h | h
        · have := hd.values p hp v h
          rw [hn] at this
          exact this
        · exact hval v h
      · show content (e.attrs.update U (.bytes attr) fun _ => _) n b ↔ _
        rw [content_update' hU hd.toNamed hname hp hn]
        show (if n = fold attr then _ else _) ↔ (if n = fold attr then _ else _)
        split
        · rename_i en
          subst en
          rw [at_name hd.toNamed hp hn, ← hmem b]
          constructor
          · rintro ⟨v, hv, h⟩
            rcases Delta.mem_update.mp hv with h' | h'
            · exact .inl ⟨v, h', h⟩
            · exact .inr ⟨v, h', h⟩
          · rintro (⟨v, hv, h⟩ | ⟨v, hv, h⟩)
            · exact ⟨v, Delta.mem_update.mpr (.inl hv), h⟩
            · exact ⟨v, Delta.mem_update.mpr (.inr hv), h⟩
        · exact Iff.rfl
    · have hno : ∀ p ∈ e.attrs, fold p.1.toBytes ≠ fold attr := fun p hp h => hex ⟨p, hp, h⟩
      obtain ⟨y, h1, hy⟩ := keys hk
      have hf1 := find_absent hU hd.toNamed hk (y := .bytes attr) rfl hno
      have hf2 := find_absent hU hd.toNamed hk hy hno
      have hh : e.hasKey U (.bytes attr) = .ok false := by
        simp [Entry.hasKey, Entry.get, h1, Entry.firstOf, hf1, hf2, bind, Except.bind, pure, Except.pure]
      simp only [hh]
      refine ⟨_, rfl, store.1, rfl, fun n b => ?_⟩
      rw [store.2]
      show _ ↔ (if n = fold attr then _ else _)
      split
      · rename_i en
        subst en
        constructor
        · exact .inr
        · rintro (h | h)
          · obtain ⟨p, hp, hn⟩ := there h
            exact absurd hn (hno p hp)
          · exact h
      · exact Iff.rfl
  | delete =>
    obtain ⟨⟨b0, hb0⟩, hnd, hall⟩ := hacc
    simp only [patch]
    obtain ⟨cs, hcs, hperm⟩ := perm_map_bytes (mkSet_of_nodup (map_bytes_nodup hnd))
    rw [hcs]
    by_cases hv : cs = []
    · subst hv
      have : values = [] := List.Perm.eq_nil hperm.symm
      subst this
      rw [if_pos (by rfl)]
      obtain ⟨p, hp, hn⟩ := there hb0
      have hf := find_there hU hd.toNamed hk hp hn
      obtain ⟨_, h2⟩ := content_erase hU hd.toNamed (k := .bytes attr) hk hf
      refine ⟨{ e with attrs := e.attrs.erase U (.bytes attr) }, by simp [Entry.delItem, hf], erase_tidy hd, rfl, fun n b => ?_⟩
      rw [h2]
      show n ≠ fold attr ∧ _ ↔ (if n = fold attr then _ else _)
      split <;> simp_all
    · rw [if_neg (by simp [hv])]
      obtain ⟨e', h1, h2, h3, h4⟩ := removeLoop_octets hU hk cs (hperm.nodup_iff.mpr hnd) (fun b hb => hdec rfl b (hperm.mem_iff.mp hb)) hd
        (fun b hb => hall b (hperm.mem_iff.mp hb))
      refine ⟨e', h1, h2, h3, fun n b => ?_⟩
      rw [h4]
      have hne : values ≠ [] := fun h => hv (by rw [h] at hperm; exact List.Perm.eq_nil hperm)
      show _ ↔ (if n = fold attr then _ else _)
      split
      · rename_i en
        simp only [hperm.mem_iff]
        exact ⟨fun h => ⟨hne, h.1, h.2 en⟩, fun h => ⟨h.2.1, fun _ => h.2.2⟩⟩
      · rename_i en
        exact ⟨fun h => h.1, fun h => ⟨h, fun h' => absurd h' en⟩⟩

theorem effect_same' {m : Change} {c d : Content} (h : Same c d) : Same (m.effect c) (m.effect d) := by
  intro n b
  unfold Change.effect
  split
  · cases m.kind <;> simp [h n b]
  · exact h n b

theorem accepted_same' {m : Change} {c d : Content} (h : Same c d) : m.Accepted c ↔ m.Accepted d := by
  unfold Change.Accepted
  cases m.kind <;> simp [h _ _]

theorem allAccepted_same {ms : List Change} {c d : Content} (h : Same c d) : AllAccepted ms c ↔ AllAccepted ms d := by
  induction ms generalizing c d with
  | nil => exact Iff.rfl
  | cons m ms ih => exact and_congr (accepted_same' h) (ih (effect_same' h))

theorem effects_same' {ms : List Change} {c d : Content} (h : Same c d) : Same (effects ms c) (effects ms d) := by
  induction ms generalizing c d with
  | nil => exact h
  | cons m ms ih => exact ih (effect_same' h)

/-- Some changes. -/
theorem patchAll_effects (hU : Sane U) (ms : List Change) (hd : rawOctets.Tidy e.attrs) (hk : ∀ m ∈ ms, Utf8.AsciiBytes m.attr)
    (hdec : ∀ m ∈ ms, m.kind = .delete → ∀ b ∈ m.values, (PyStr.bytes b).Decodable) (hacc : AllAccepted ms (content e.attrs)) :
    ∃ e', patchAll U (ms.map modFor) e = (e', none) ∧ rawOctets.Tidy e'.attrs ∧ e'.dn = e.dn ∧
      Same (content e'.attrs) (effects ms (content e.attrs)) := by
  induction ms generalizing e with
  | nil => exact ⟨e, rfl, hd, rfl, fun _ _ => Iff.rfl⟩
  | cons m ms ih =>
    obtain ⟨e1, h1, h2, h3, h4⟩ := patch_effect hU hd m (hk m List.mem_cons_self) (hdec m List.mem_cons_self) hacc.1
    obtain ⟨e2, g1, g2, g3, g4⟩ := ih h2 (fun x hx => hk x (List.mem_cons_of_mem _ hx)) (fun x hx => hdec x (List.mem_cons_of_mem _ hx))
      ((allAccepted_same h4).mpr hacc.2)
    refine ⟨e2, by simp only [List.map_cons, patchAll, h1]; exact g1, g2, g3.trans h3, fun n b => ?_⟩
    rw [g4 n b]
    exact effects_same' h4 n b

end Verif.Delta
