import Verif.Lemmas.RenameOk
import Verif.Lemmas.ServerModify
/-
The loops over the attributes of an RDN, on an entry whose names and values are octets.
-/
namespace Verif.Rename
open Verif.Dn Verif.Tree Verif.Spec Verif.Spec.Modify Verif.Syntax Verif.Delta

variable {U : Unicode} {e : Entry}

/-- The name of the attribute and the value of one part of an RDN. -/
def pair (a : Ava) : Bytes × Bytes := (fold (Utf8.encode a.attributeType), Utf8.encode a.value)

theorem find_text {d : Attrs} (hd : ∀ p ∈ d, p.1.isText = false) (t : Str) : d.find U (.text t) = none := by
  induction d with
  | nil => rfl
  | cons q d ih =>
    obtain ⟨k, vs⟩ := q
    have hk : k.isText = false := hd _ List.mem_cons_self
    cases k with
    | text s => cases hk
    | bytes b =>
      simp only [Attrs.find]
      rw [if_neg (by simp [PyStr.lower]), ih fun p hp => hd p (List.mem_cons_of_mem _ hp)]

/-- A set that is there is changed, though its name is octets and the key is text. -/
theorem changeText_there (hU : Sane U) (hd : rawOctets.Named e.attrs) {t : Str} (hk : Utf8.AsciiBytes (Utf8.encode t))
    {p : PyStr × List PyStr} (hp : p ∈ e.attrs) (hn : fold p.1.toBytes = fold (Utf8.encode t)) {f : List PyStr → Py (List PyStr)} {s : List PyStr}
    (hf : f p.2 = .ok s) :
    e.changeItem U (.text t) f = ({ e with attrs := e.attrs.update U (.bytes (Utf8.encode t)) fun _ => s }, none) := by
  have h1 := find_text (U := U) (fun p hp => (hd.names p hp).kind) t
  have h2 := find_there hU hd hk hp hn
  simp [Entry.changeItem, PyStr.getStrings, Entry.formOf, h1, h2, hf]

/-- The same names. -/
def SameNames (d d' : Attrs) : Prop := (∀ p ∈ d, ∃ q ∈ d', q.1 = p.1) ∧ ∀ q ∈ d', ∃ p ∈ d, p.1 = q.1

theorem SameNames.trans {a b c : Attrs} (h : SameNames a b) (h' : SameNames b c) : SameNames a c := by
  refine ⟨fun p hp => ?_, fun p hp => ?_⟩
  · obtain ⟨q, hq, e⟩ := h.1 p hp
    obtain ⟨x, hx, e'⟩ := h'.1 q hq
    exact ⟨x, hx, e'.trans e⟩
  · obtain ⟨q, hq, e⟩ := h'.2 p hp
    obtain ⟨x, hx, e'⟩ := h.2 q hq
    exact ⟨x, hx, e'.trans e⟩

theorem sameNames_update (hU : Sane U) {d : Attrs} (hd : rawOctets.Named d) {k : Bytes} (hk : Utf8.AsciiBytes k) (vs : List PyStr) :
    SameNames d (d.update U (.bytes k) fun _ => vs) := by
  have hm := fun p => mem_update hU hd (octets_name hk) (vs := vs) (p := p)
  refine ⟨fun p hp => ?_, fun q hq => ?_⟩
  · by_cases h : fold p.1.toBytes = fold k
    · exact ⟨(p.1, vs), (hm _).mpr (.inl ⟨p, hp, h, rfl⟩), rfl⟩
    · exact ⟨p, (hm _).mpr (.inr ⟨hp, h⟩), rfl⟩
  · rcases (hm _).mp hq with ⟨x, hx, _, rfl⟩ | ⟨h, _⟩
    · exact ⟨x, hx, rfl⟩
    · exact ⟨q, h, rfl⟩

theorem update_named (hU : Sane U) {d : Attrs} (hd : rawOctets.Named d) {k : Bytes} (hk : Utf8.AsciiBytes k) (vs : List PyStr) :
    rawOctets.Named (d.update U (.bytes k) fun _ => vs) := by
  refine ⟨fun p hp => ?_, ?_⟩
  · rcases (mem_update hU hd (octets_name hk)).mp hp with ⟨q, hq, _, rfl⟩ | hp
    · exact hd.names q hq
    · exact hd.names p hp.1
  · have h1 : (d.map (·.1)).Pairwise fun x y => fold x.toBytes ≠ fold y.toBytes := by rw [List.pairwise_map]; exact hd.apart
    have h2 : ((d.update U (.bytes k) fun _ => vs).map (·.1)).Pairwise fun x y => fold x.toBytes ≠ fold y.toBytes := by
      rw [Delta.update_names]; exact h1
    rw [List.pairwise_map] at h2
    exact h2

/-- The values of an RDN are removed. -/
theorem removeRdn (hU : Sane U) {old : Rdn} (hk : ∀ a ∈ old, Utf8.AsciiBytes (Utf8.encode a.attributeType)) (hd : rawOctets.Tidy e.attrs)
    (hc : ∀ a ∈ old, content e.attrs (pair a).1 (pair a).2) (hn : (old.map pair).Nodup) :
    ∃ e', rdnLoop U (fun v s => AttributeSet.remove s v) old e = (e', none) ∧ rawOctets.Tidy e'.attrs ∧ SameNames e.attrs e'.attrs ∧
      ∀ n b, content e'.attrs n b ↔ content e.attrs n b ∧ ∀ a ∈ old, (n, b) ≠ pair a := by
  induction old generalizing e with
  | nil => exact ⟨e, rfl, hd, ⟨fun p hp => ⟨p, hp, rfl⟩, fun p hp => ⟨p, hp, rfl⟩⟩, fun n b => by simp⟩
  | cons a old ih =>
    rw [List.map_cons, List.nodup_cons] at hn
    have hka := hk a List.mem_cons_self
    obtain ⟨p, hp, hpn, v, hv, hvx⟩ := hc a List.mem_cons_self
    have hpn : fold p.1.toBytes = fold (Utf8.encode a.attributeType) := hpn
    have hvx : v.toBytes = Utf8.encode a.value := hvx
    have hvb : v = .bytes (Utf8.encode a.value) := by rw [octet_of (hd.values p hp v hv), hvx]
    subst hvb
    have hrem : AttributeSet.remove p.2 (.text a.value) = .ok (p.2.erase (.bytes (Utf8.encode a.value))) := by
      have h1 : PyStr.text a.value ∉ p.2 := fun h => by have := hd.values p hp _ h; cases this
      simp only [AttributeSet.remove, PyStr.getStrings, bind, Except.bind, AttributeSet.firstIn, if_neg h1, if_pos hv]
      rfl
    have hstep := changeText_there hU hd.toNamed hka hp hpn (f := fun s => AttributeSet.remove s (.text a.value)) hrem
    have hnd : (p.2.erase (.bytes (Utf8.encode a.value))).Nodup := (hd.nodup p hp).erase _
    have hsub : ∀ u ∈ p.2.erase (.bytes (Utf8.encode a.value)), u ∈ p.2 := fun u hu => List.mem_of_mem_erase hu
    have hd1 : rawOctets.Tidy (e.attrs.update U (.bytes (Utf8.encode a.attributeType)) fun _ => p.2.erase (.bytes (Utf8.encode a.value))) := by
      refine update_tidy hU hd (octets_name hka) (fun u hu => ?_) hnd
      exact hd.values p hp u (hsub u hu)
    have hcont : ∀ n b, content (e.attrs.update U (.bytes (Utf8.encode a.attributeType)) fun _ => p.2.erase (.bytes (Utf8.encode a.value))) n b ↔
        content e.attrs n b ∧ (n, b) ≠ pair a := by
      intro n b
      rw [content_update' hU hd.toNamed (octets_name hka) hp hpn]
      split
      · rename_i en
        have en : n = fold (Utf8.encode a.attributeType) := en
        rw [en, at_name hd.toNamed hp hpn]
        constructor
        · rintro ⟨u, hu, rfl⟩
          refine ⟨⟨u, hsub u hu, rfl⟩, fun h => ?_⟩
          have h1 : u = .bytes (Utf8.encode a.value) := by
            rw [octet_of (hd.values p hp u (hsub u hu)), (Prod.mk.inj h).2]
          rw [h1] at hu
          exact absurd hu ((hd.nodup p hp).not_mem_erase)
        · rintro ⟨⟨u, hu, rfl⟩, hne⟩
          refine ⟨u, ?_, rfl⟩
          rw [(hd.nodup p hp).mem_erase_iff]
          exact ⟨fun h => hne (by rw [h]; rfl), hu⟩
      · rename_i en
        have en : n ≠ fold (Utf8.encode a.attributeType) := en
        exact ⟨fun h => ⟨h, fun h' => en (Prod.mk.inj h').1⟩, fun h => h.1⟩
    obtain ⟨e', h1, h2, h3, h4⟩ := ih (e := { e with attrs := e.attrs.update U (.bytes (Utf8.encode a.attributeType)) (fun _ => p.2.erase (.bytes (Utf8.encode a.value))) })
      (fun b hb => hk b (List.mem_cons_of_mem _ hb)) hd1 (fun b hb => by
        rw [hcont]
        exact ⟨hc b (List.mem_cons_of_mem _ hb), fun h => hn.1 (List.mem_map.mpr ⟨b, hb, h⟩)⟩) hn.2
    refine ⟨e', ?_, h2, (sameNames_update hU hd.toNamed hka _).trans h3, fun n b => ?_⟩
    · simp only [rdnLoop, hstep]
      exact h1
    · rw [h4, hcont]
      simp only [List.mem_cons, forall_eq_or_imp, and_assoc]

/-- The attributes of `T` have texts as values, the others octets. -/
def Kinds (T : Bytes → Prop) (d : Attrs) : Prop :=
  ∀ p ∈ d, (T (fold p.1.toBytes) → ∀ v ∈ p.2, v.isText = true) ∧ (¬ T (fold p.1.toBytes) → ∀ v ∈ p.2, v.isText = false)

/-- The values of an RDN are added, as texts. -/
theorem addRdn (hU : Sane U) {T : Bytes → Prop} {new : Rdn} (hk : ∀ a ∈ new, Utf8.AsciiBytes (Utf8.encode a.attributeType))
    (hT : ∀ a ∈ new, T (pair a).1) (hd : rawOctets.Named e.attrs) (hkinds : Kinds T e.attrs)
    (hknown : ∀ a ∈ new, ∃ p ∈ e.attrs, fold p.1.toBytes = (pair a).1) :
    ∃ e', rdnLoop U (fun v s => AttributeSet.add s v) new e = (e', none) ∧ rawOctets.Named e'.attrs ∧ Kinds T e'.attrs ∧
      SameNames e.attrs e'.attrs ∧ ∀ n b, content e'.attrs n b ↔ content e.attrs n b ∨ ∃ a ∈ new, (n, b) = pair a := by
  induction new generalizing e with
  | nil => exact ⟨e, rfl, hd, hkinds, ⟨fun p hp => ⟨p, hp, rfl⟩, fun p hp => ⟨p, hp, rfl⟩⟩, fun n b => by simp⟩
  | cons a new ih =>
    have hka := hk a List.mem_cons_self
    obtain ⟨p, hp, hpn⟩ := hknown a List.mem_cons_self
    have hpn : fold p.1.toBytes = fold (Utf8.encode a.attributeType) := hpn
    have hTa : T (fold (Utf8.encode a.attributeType)) := hT a List.mem_cons_self
    obtain ⟨s', hs'⟩ : ∃ s', AttributeSet.add p.2 (.text a.value) = .ok s' := by
      rcases add_text p.2 a.value with ⟨_, h⟩ | ⟨_, h⟩ <;> exact ⟨_, h⟩
    have htext : ∀ v ∈ s', v.isText = true := by
      intro v hv
      have hold := (hkinds p hp).1 (by rw [hpn]; exact hTa)
      rcases add_text p.2 a.value with ⟨_, h⟩ | ⟨_, h⟩
      · rw [h] at hs'; cases hs'; exact hold v hv
      · rw [h] at hs'; cases hs'
        rcases List.mem_cons.mp hv with rfl | hv
        · rfl
        · exact hold v hv
    have hstep := changeText_there hU hd hka hp hpn (f := fun s => AttributeSet.add s (.text a.value)) hs'
    have hnames := sameNames_update hU hd hka s'
    have hd1 : rawOctets.Named (e.attrs.update U (.bytes (Utf8.encode a.attributeType)) fun _ => s') := update_named hU hd hka s'
    have hm := fun q => mem_update hU hd (octets_name hka) (vs := s') (p := q)
    have hkinds1 : Kinds T (e.attrs.update U (.bytes (Utf8.encode a.attributeType)) fun _ => s') := by
      intro q hq
      rcases (hm q).mp hq with ⟨x, hx, hxn, rfl⟩ | ⟨h, _⟩
      · refine ⟨fun _ => htext, fun h => absurd ?_ h⟩
        show T (fold x.1.toBytes)
        rw [hxn]; exact hTa
      · exact hkinds q h
    have hcont : ∀ n b, content (e.attrs.update U (.bytes (Utf8.encode a.attributeType)) fun _ => s') n b ↔
        content e.attrs n b ∨ (n, b) = pair a := by
      intro n b
      obtain ⟨g1, g2, g3, _⟩ := add_ok hs'
      rw [content_update' hU hd (octets_name hka) hp hpn]
      split
      · rename_i en
        have en : n = fold (Utf8.encode a.attributeType) := en
        rw [en, at_name hd hp hpn]
        constructor
        · intro h
          rcases g3 b h with h | h
          · right; rw [h]; rfl
          · exact .inl h
        · rintro (⟨u, hu, rfl⟩ | h)
          · exact ⟨u, g1 hu, rfl⟩
          · rw [(Prod.mk.inj h).2]; exact g2
      · rename_i en
        have en : n ≠ fold (Utf8.encode a.attributeType) := en
        exact ⟨.inl, fun h => h.elim id fun h' => absurd (Prod.mk.inj h').1 en⟩
    obtain ⟨e', h1, h2, h3, h4, h5⟩ := ih (e := { e with attrs := e.attrs.update U (.bytes (Utf8.encode a.attributeType)) fun _ => s' })
      (fun b hb => hk b (List.mem_cons_of_mem _ hb)) (fun b hb => hT b (List.mem_cons_of_mem _ hb)) hd1 hkinds1 (fun b hb => by
        obtain ⟨q, hq, hqn⟩ := hknown b (List.mem_cons_of_mem _ hb)
        obtain ⟨x, hx, hxn⟩ := hnames.1 q hq
        exact ⟨x, hx, by rw [hxn]; exact hqn⟩)
    refine ⟨e', ?_, h2, h3, hnames.trans h4, fun n b => ?_⟩
    · simp only [rdnLoop, hstep]
      exact h1
    · rw [h5, hcont]
      simp only [List.mem_cons, exists_eq_or_imp, or_assoc]

end Verif.Rename
