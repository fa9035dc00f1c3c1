import Verif.Props.C95
import Verif.Props.C96
/-
C97  A new account gets numbers that no entry has.
-/
namespace Verif.C97
open Verif.Spec Verif.Spec.Modify Verif.Spec.Autofill Verif.Autofill Verif.Syntax
open Verif.C96 (uid gid)

abbrev shell : Str := "loginShell".toList

theorem shell_apart : (PyStr.text shell).Ascii ∧ nameOf shell ≠ nameOf uid ∧ nameOf shell ≠ nameOf gid ∧ ∀ d ∈ C96.derivedNames, nameOf shell ≠ nameOf d := by
  unfold PyStr.Ascii; decide +kernel

/-- The entry is not named by this attribute. -/
def NotNaming (s : St) (name : Str) : Prop := ∀ r rest, s.dn = r :: rest → ∀ a ∈ r, a.attributeType ≠ name

theorem can_set {fs : List Filler} {s : St} (hb : Base fs s) {name : Str} (h : NotNaming s name) : canRemoveAll s (.text name) = none := by
  obtain ⟨r, rest, hdn, _⟩ := hb.named
  have : (r.any fun a => decide (PyStr.text a.attributeType = .text name)) = false := by
    rw [List.any_eq_false]
    intro a ha
    simpa using h r rest hdn a ha
  simp only [canRemoveAll, hb.alive, Bool.false_eq_true, if_false, hdn, this]

theorem fresh_one {U : Unicode} {fs : List Filler} {depth : Nat} {s s' : St} {k v : Str} (h1 : target U s (.text k) = .error (.py .keyError))
    (h2 : Autofill.edit U fs depth s (.set (.text k) [.text v]) = (s', none)) : fresh U fs depth s [(k, v)] = (s', none) := by
  simp only [fresh, h1, h2]

theorem start_posix {env : Server.Env} {fs : List Filler} {depth : Nat} {s s' : St} {vs : List PyStr} (h1 : valuesOf env.U s "objectClass".toList = .ok vs)
    (h2 : PyStr.text Filler.posix.class ∈ vs) (h3 : fresh env.U fs depth s Filler.posix.initial = (s', none)) : start env fs depth s .posix = (s', none) := by
  unfold start
  generalize "objectClass".toList = x at h1 ⊢
  rw [h1]
  generalize Filler.posix.class = y at h2 ⊢
  generalize Filler.posix.initial = z at h3 ⊢
  simp only [if_pos h2, h3]

/-- The first step: an account without a shell gets one, and nothing else changes. -/
theorem started (env : Server.Env) (hU : Sane env.U) {fs : List Filler} (depth : Nat) {s : St} (hg : Good fs s)
    (hclass : content s.attrs (nameOf "objectClass".toList) (Utf8.encode "posixAccount".toList)) (hno : ∀ p ∈ s.attrs, fold p.1.toBytes ≠ nameOf shell)
    (hnn : NotNaming s shell) :
    ∃ s', start env fs depth s .posix = (s', none) ∧ Good fs s' ∧ s'.dn = s.dn ∧
      (∀ n b, content s'.attrs n b ↔ if n = nameOf shell then b = Utf8.encode "/bin/sh".toList else content s.attrs n b) ∧
      s'.journal = s.journal ++ [⟨.replace, .text shell, [.text "/bin/sh".toList]⟩] := by
  obtain ⟨hsa, hs1, hs2, hs3⟩ := shell_apart
  have hk : allText.Name (.text shell) := C96.text_name hsa
  have hoc : (PyStr.text "objectClass".toList).Ascii := by unfold PyStr.Ascii; decide +kernel
  have hval : ∃ vs, valuesOf env.U s "objectClass".toList = .ok vs ∧ PyStr.text "posixAccount".toList ∈ vs := by
    rcases C96.values_or hU hg.tidy hg.alive hoc with ⟨k, vs, hm, _, hv, _, hc⟩ | ⟨_, hc⟩
    · obtain ⟨v, hvm, e⟩ := (hc _).mp hclass
      refine ⟨vs, hv, ?_⟩
      match v, hg.tidy.values _ hm v hvm, e with
      | .text t, _, e => rw [← Utf8.encode_injective e]; exact hvm
    · exact absurd hclass (hc _)
  obtain ⟨vs, hv, hmem⟩ := hval
  have htg : target env.U s (.text shell) = .error (.py .keyError) := by
    rcases C96.target_or hU hg.tidy.toNamed hg.alive hsa with ⟨p, hp, hf, _⟩ | ⟨h, _⟩
    · exact absurd hf (hno p hp)
    · exact h
  let s1 : St := { s with attrs := s.attrs.set env.U (.text shell) [.text "/bin/sh".toList] }.record ⟨.replace, .text shell, [.text "/bin/sh".toList]⟩
  have hcan := can_set hg.toBase hnn
  have hedit : Autofill.edit env.U fs depth s (.set (.text shell) [.text "/bin/sh".toList]) = (s1, none) := by
    simp only [Autofill.edit, setItem, hcan]
    exact C96.told_quiet fs depth s1 (.text shell) (by decide) (by decide)
  have hset : ∀ n b, content s1.attrs n b ↔ if n = nameOf shell then b = Utf8.encode "/bin/sh".toList else content s.attrs n b := by
    intro n b
    refine (content_set hU hg.tidy.toNamed hk _ n b).trans ?_
    show (if n = nameOf shell then _ else _) ↔ _
    split
    · constructor
      · rintro ⟨v, hv, rfl⟩; rw [List.mem_singleton.mp hv]; rfl
      · rintro rfl; exact ⟨_, List.mem_singleton.mpr rfl, rfl⟩
    · exact Iff.rfl
  have hdn : s1.dn = s.dn := rfl
  have hdel : s1.deleted = s.deleted := rfl
  have hatt : s1.attrs = s.attrs.set env.U (.text shell) [.text "/bin/sh".toList] := rfl
  have hj : s1.journal = s.journal ++ [⟨.replace, .text shell, [.text "/bin/sh".toList]⟩] := rfl
  clear_value s1
  have hnamed : ∃ r rest, s1.dn = r :: rest ∧ ∀ a ∈ r, ∀ t ∈ fs.flatMap tracks, a.attributeType ≠ t.derived := by rw [hdn]; exact hg.named
  suffices hgood : start env fs depth s .posix = (s1, none) ∧ Good fs s1 from ⟨s1, hgood.1, hgood.2, hdn, hset, hj⟩
  refine And.intro ?_ (Good.mk (Base.mk ?_ (hdel.trans hg.alive) ?_ hnamed) ?_)
  · exact start_posix hv hmem (fresh_one htg hedit)
  · rw [hatt]
    exact set_tidy hU hg.tidy hk (fun v hv => by rw [List.mem_singleton.mp hv]; rfl) (List.nodup_singleton _)
  · intro p hp
    rw [hatt] at hp
    rcases (mem_set hU hg.tidy.toNamed hk).mp hp with rfl | hp
    · exact C96.exact_of hs1 hs2
    · exact hg.exact p hp.1
  · intro t ht
    refine C96.follows_same (fun b => ?_) (fun b => ?_) (hg.follows t ht)
    · refine (hset _ b).trans ?_
      rw [if_neg]
      rcases (C96.mem_tracks ht).2 with e | e <;> rw [e]
      · exact hs1.symm
      · exact hs2.symm
    · refine (hset _ b).trans ?_
      rw [if_neg (hs3 _ (C96.mem_tracks ht).1).symm]

/-- The last step: the numbers that were found are set, what other fillers derive from them is set as well, and nothing else
changes. -/
theorem numbered {U : Unicode} (hU : Sane U) {fs : List Filler} (hD : Distinct fs) (depth : Nat) {s : St} (hg : Good fs s) (h1 : NotNaming s uid)
    (h2 : NotNaming s gid) (n m : Int) :
    ∃ s', gotNumbers U fs (depth + 1) s n m = (s', none) ∧ Good fs s' ∧ s'.dn = s.dn ∧
      (∀ b, content s'.attrs (nameOf uid) b ↔ b = Utf8.encode (Decimal.ofInt n)) ∧
      (∀ b, content s'.attrs (nameOf gid) b ↔ b = Utf8.encode (Decimal.ofInt m)) ∧
      (∀ x b, x ≠ nameOf uid → x ≠ nameOf gid → (∀ t ∈ fs.flatMap tracks, x ≠ nameOf t.derived) → (content s'.attrs x b ↔ content s.attrs x b)) ∧
      (∃ l₁ l₂, s'.journal = s.journal ++ ⟨.replace, .text uid, [.text (Decimal.ofInt n)]⟩ :: l₁ ++ ⟨.replace, .text gid, [.text (Decimal.ofInt m)]⟩ :: l₂ ∧
        ∀ x ∈ l₁ ++ l₂, ∃ t ∈ fs.flatMap tracks, x.key = .text t.derived) := by
  obtain ⟨s1, e1, a1, b1, c1, j1⟩ := C96.number_set hU hD depth hg.toBase (.inl rfl) (can_set hg.toBase h1) n
  have hp : ∀ {name : Str} {v : Str}, name = uid ∨ name = gid → Proper fs (.set (.text name) [.text v]) := fun {name v} h =>
    C96.proper_number ⟨C96.text_name (C96.number_ascii h), fun w hw => by rw [List.mem_singleton.mp hw]; rfl⟩ (by
      rcases h with rfl | rfl
      · exact .inl rfl
      · exact .inr rfl)
  have g1 := C96.follows hU hD depth hg (hp (name := uid) (v := Decimal.ofInt n) (.inl rfl))
  have d1 := C96.set_dn (U := U) fs (depth + 1) s (.text uid) [.text (Decimal.ofInt n)]
  rw [e1] at g1 d1
  have h2' : NotNaming s1 gid := fun r rest hr => h2 r rest (d1.symm.trans hr)
  obtain ⟨s2, e2, a2, b2, c2, j2⟩ := C96.number_set hU hD depth g1.toBase (.inr rfl) (can_set g1.toBase h2') m
  have g2 := C96.follows hU hD depth g1 (hp (name := gid) (v := Decimal.ofInt m) (.inr rfl))
  have d2 := C96.set_dn (U := U) fs (depth + 1) s1 (.text gid) [.text (Decimal.ofInt m)]
  rw [e2] at g2 d2
  refine ⟨s2, ?_, g2, d2.trans d1, fun b => ?_, a2, fun x b k1 k2 k3 => ?_, ?_⟩
  · have e1' : Autofill.edit U fs (depth + 1) s (.set (.text "uidNumber".toList) [.text (Decimal.ofInt n)]) = (s1, none) := e1
    simp only [gotNumbers, e1']
    exact e2
  · exact (c2 _ b C96.uid_ne_gid fun t ht _ => (C96.derived_ne (.inl rfl) (C96.mem_tracks ht).1).symm).trans (a1 b)
  · exact (c2 x b k2 fun t ht _ => k3 t ht).trans (c1 x b k1 fun t ht _ => k3 t ht)
  · refine ⟨((fs.flatMap tracks).filter fun t => t.number = uid).map fun t => ⟨.replace, .text t.derived, [.text (t.value n)]⟩,
      ((fs.flatMap tracks).filter fun t => t.number = gid).map fun t => ⟨.replace, .text t.derived, [.text (t.value m)]⟩, ?_, ?_⟩
    · rw [j2, j1]
    · intro x hx
      rcases List.mem_append.mp hx with hx | hx
      · obtain ⟨t, ht, rfl⟩ := List.mem_map.mp hx
        exact ⟨t, (List.mem_filter.mp ht).1, rfl⟩
      · obtain ⟨t, ht, rfl⟩ := List.mem_map.mp hx
        exact ⟨t, (List.mem_filter.mp ht).1, rfl⟩

theorem good_posix {fs : List Filler} {s : St} (h : Good fs s) : Good (fs ++ [.posix]) s := by
  have e : (fs ++ [Filler.posix]).flatMap tracks = fs.flatMap tracks := by rw [C96.tracks_append]; exact List.append_nil _
  obtain ⟨⟨h1, h2, h3, h4⟩, h5⟩ := h
  exact ⟨⟨h1, h2, h3, by rw [e]; exact h4⟩, by rw [e]; exact h5⟩

/-- **C97** A new account, and a server of this library: the account gets a shell and two numbers; no entry below the base has the
numbers; other fillers have set what follows from them; nothing else is changed. -/
theorem new_account_partial (env : Server.Env) (hU : Sane env.U) (luck : Server.Luck) (st : Server.State) (hb : C67.Built env st.heap) (d : Dn.Dn) (hd : Textual d)
    (j : Nat) (hj : Tree.lookup env.U st.heap 0 d = .ok j) (hlt : j < st.heap.length) (hu : C95.Askable st.heap j uid) (hgi : C95.Askable st.heap j gid)
    {fs : List Filler} (hD : Distinct fs) (depth : Nat) {s : St} (hg : Good fs s)
    (hclass : content s.attrs (nameOf "objectClass".toList) (Utf8.encode "posixAccount".toList)) (hno : ∀ p ∈ s.attrs, fold p.1.toBytes ≠ nameOf shell)
    (hnn : NotNaming s shell ∧ NotNaming s uid ∧ NotNaming s gid) :
    ∃ s₁ n m s₂, start env fs (depth + 1) s .posix = (s₁, none) ∧
      C95.Search (C95.Answers env luck st d uid) ⟨1000, none⟩ 1000 n ∧ C95.Search (C95.Answers env luck st d gid) ⟨1000, none⟩ 1000 m ∧
      1000 ≤ n ∧ ¬ C95.Used st.heap j uid n ∧ 1000 ≤ m ∧ ¬ C95.Used st.heap j gid m ∧
      gotNumbers env.U fs (depth + 1) s₁ n m = (s₂, none) ∧ Good (added fs .posix none) s₂ ∧
      (∀ b, content s₂.attrs (nameOf shell) b ↔ b = Utf8.encode "/bin/sh".toList) ∧
      (∀ b, content s₂.attrs (nameOf uid) b ↔ b = Utf8.encode (Decimal.ofInt n)) ∧
      (∀ b, content s₂.attrs (nameOf gid) b ↔ b = Utf8.encode (Decimal.ofInt m)) ∧
      (∀ x b, x ≠ nameOf shell → x ≠ nameOf uid → x ≠ nameOf gid → (∀ t ∈ fs.flatMap tracks, x ≠ nameOf t.derived) →
        (content s₂.attrs x b ↔ content s.attrs x b)) := by
  obtain ⟨h0, h1, h2⟩ := hnn
  obtain ⟨s1, e1, g1, d1, c1, _⟩ := started env hU (depth + 1) hg hclass hno h0
  obtain ⟨n, n1, n2, n3, _⟩ := C95.free_number env hU luck st hb d hd j hj hlt uid hu 1000
  obtain ⟨m, m1, m2, m3, _⟩ := C95.free_number env hU luck st hb d hd j hj hlt gid hgi 1000
  obtain ⟨s2, e2, g2, _, a2, b2, c2, _⟩ := numbered hU hD depth g1 (fun r rest h => h1 r rest (d1.symm.trans h)) (fun r rest h => h2 r rest (d1.symm.trans h)) n m
  obtain ⟨_, hs1, hs2, hs3⟩ := shell_apart
  refine ⟨s1, n, m, s2, e1, n1, m1, n2, n3, m2, m3, e2, good_posix g2, fun b => ?_, a2, b2, fun x b k0 k1 k2 k3 => ?_⟩
  · refine (c2 _ b hs1 hs2 fun t ht => hs3 _ (C96.mem_tracks ht).1).trans ((c1 _ b).trans ?_)
    rw [if_pos rfl]
  · refine (c2 x b k1 k2 k3).trans ((c1 x b).trans ?_)
    rw [if_neg k0]

/-- **C97 does not hold** for entries that a search has brought: their values are octets, the fillers look for text, and each of them
refuses such an entry, whatever classes it has. -/
theorem fetched_refused (env : Server.Env) (hU : Sane env.U) {V : Vocabulary} (fs : List Filler) (depth : Nat) {s : St} (hd : V.Tidy s.attrs) (ha : s.deleted = false)
    (hoct : ∀ p ∈ s.attrs, ∀ v ∈ p.2, v.isText = false) (hclass : ∃ p ∈ s.attrs, fold p.1.toBytes = nameOf "objectClass".toList) (f : Filler) :
    start env fs depth s f = (s, some .missingClass) := by
  have hoc : (PyStr.text "objectClass".toList).Ascii := by unfold PyStr.Ascii; decide +kernel
  obtain ⟨p, hp, hf⟩ := hclass
  have ht := target_found hU hd.toNamed ha hoc hp hf
  have hv : valuesOf env.U s "objectClass".toList = .ok p.2 := by
    unfold valuesOf
    rw [ht]
  have hn : PyStr.text f.class ∉ p.2 := fun h => by
    have := hoct p hp _ h
    cases this
  unfold start
  generalize "objectClass".toList = x at hv ⊢
  rw [hv]
  generalize f.class = y at hn ⊢
  simp only [if_neg hn]

/-! ### Examples -/

def person : St := { C96.account with attrs := [(.text "objectClass".toList, [.text "posixAccount".toList]), (.text "uid".toList, [.text "jo".toList])] }

theorem base_person (fs : List Filler) : Base fs person := by
  refine ⟨C96.tidy_of (by unfold PyStr.Ascii; decide +kernel) (by decide +kernel) (by decide +kernel), rfl, ?_, C96.named_account fs rfl⟩
  have : ∀ p ∈ person.attrs, fold p.1.toBytes ≠ nameOf uid ∧ fold p.1.toBytes ≠ nameOf gid := by decide +kernel
  exact fun p hp => ⟨fun h => absurd h (this p hp).1, fun h => absurd h (this p hp).2⟩

theorem good_person (fs : List Filler) : Good fs person := by
  refine C96.begin (base_person fs) fun b => ?_
  have : ∀ p ∈ person.attrs, fold p.1.toBytes ≠ nameOf uid ∧ fold p.1.toBytes ≠ nameOf gid := by decide +kernel
  exact ⟨fun ⟨p, hp, e, _⟩ => (this p hp).1 e, fun ⟨p, hp, e, _⟩ => (this p hp).2 e⟩

theorem class_person : content person.attrs (nameOf "objectClass".toList) (Utf8.encode "posixAccount".toList) :=
  ⟨_, List.mem_cons_self, rfl, _, List.mem_cons_self, rfl⟩

theorem not_naming {name : Str} (h : "uid".toList ≠ name) : NotNaming person name := by
  intro r rest hr a ha
  cases hr
  rw [List.mem_singleton.mp ha]
  exact h

/-- The hypotheses of `new_account_partial` can be met, on a server where 1000 is used and with fillers that derive more from the numbers. -/
example := new_account_partial C40.env asciiTables_sane C40.luck ⟨C95.heap, none⟩ C95.built C95.root.dn ⟨by decide, by decide⟩ 0 (by decide +kernel) (by decide)
  (C95.askable_any (C96.number_ascii (.inl rfl))) (C95.askable_any (C96.number_ascii (.inr rfl))) C96.distinct_fillers 2 (good_person C96.fillers) class_person
  (by decide +kernel) ⟨not_naming (by decide), not_naming (by decide), not_naming (by decide)⟩

/-- What is on record in the end. -/
example : (gotNumbers asciiTables C96.fillers 3 (start C40.env C96.fillers 3 person .posix).1 1001 1000).1.journal.map (·.key) =
    [.text shell, .text uid, .text "rid".toList, .text "sambaSID".toList, .text gid, .text "primaryGroupID".toList, .text "sambaPrimaryGroupSID".toList] := by
  decide +kernel

/-- The account as a search brings it. -/
def fetched : St := { C96.account with attrs := [(.bytes (Utf8.encode "objectClass".toList), [.bytes (Utf8.encode "posixAccount".toList)])] }

/-- The hypotheses of `fetched_refused` can be met. -/
example : start C40.env [] 3 fetched .posix = (fetched, some .missingClass) := by
  have h1 : ∀ p ∈ fetched.attrs, p.1.Ascii := by unfold PyStr.Ascii; decide +kernel
  have h2 : ∀ p ∈ fetched.attrs, p.1.isText = false ∧ p.2.Nodup ∧ ∀ v ∈ p.2, v.isText = false := by decide +kernel
  exact fetched_refused C40.env asciiTables_sane (V := rawOctets) [] 3 ⟨⟨fun p hp => ⟨h1 p hp, (h2 p hp).1⟩, by decide +kernel⟩, fun p hp => (h2 p hp).2.2,
    fun p hp => (h2 p hp).2.1⟩ rfl (fun p hp => (h2 p hp).2.2) ⟨_, List.mem_cons_self, by decide +kernel⟩ .posix

end Verif.C97
