import Verif.Props.C50
/-
C74: fetching an entry makes the local view what the server returned, and never drops edits.

`dirty`: with edits on record the fetch is refused.  `absent`: if the server does not return just one entry, the caller gets
an exception and nothing changes.  `fetched_all_partial`: a fetch of everything makes the local view the entry that was
returned.  `fetched_some_partial`: a fetch of some attributes updates those that were returned and leaves the others.

The property is false for a fetch of some attributes.  `stale`: an attribute that the server does not have any more stays.
`twin`: `fetch("mail")` on an entry from a search puts the values under a second, text name; what was there stays as well.
-/
namespace Verif.C74
open Verif.Spec Verif.Spec.Modify Verif.Syntax PyStr

variable {env : Server.Env} {V : Vocabulary}

/-- An attribute among those asked for that was returned. -/
def Returned (o : Verif.Attrs) (ks : List PyStr) (n : Bytes) : Prop := (∃ k ∈ ks, fold k.toBytes = n) ∧ ∃ p ∈ o, fold p.1.toBytes = n

theorem has_set {U : Unicode} (hU : Sane U) {d : Verif.Attrs} {k : PyStr} (hd : V.Named d) (hk : V.Name k) (vs : List PyStr) (n : Bytes) (v : PyStr) :
    Has (d.set U k vs) n v ↔ if n = fold k.toBytes then v ∈ vs else Has d n v := by
  unfold Has
  simp only [mem_set hU hd hk]
  split
  · rename_i e
    subst e
    constructor
    · rintro ⟨p, rfl | ⟨_, hne⟩, e, h⟩
      · exact h
      · exact absurd e hne
    · intro h
      exact ⟨_, .inl rfl, rfl, h⟩
  · rename_i e
    constructor
    · rintro ⟨p, rfl | ⟨hp, _⟩, e', h⟩
      · exact absurd e'.symm e
      · exact ⟨p, hp, e', h⟩
    · rintro ⟨p, hp, e', h⟩
      exact ⟨p, .inr ⟨hp, by rw [e']; exact e⟩, e', h⟩

theorem has_at {d : Verif.Attrs} (hd : V.Named d) {k : PyStr} {vs : List PyStr} (hm : (k, vs) ∈ d) (v : PyStr) : Has d (fold k.toBytes) v ↔ v ∈ vs := by
  constructor
  · rintro ⟨p, hp, e, h⟩
    obtain rfl := Named.unique hd hp hm e
    exact h
  · intro h
    exact ⟨_, hm, rfl, h⟩

theorem overwrite_tidy {U : Unicode} (hU : Sane U) (dn : Dn.Dn) {o : Verif.Attrs} (ho : V.Tidy o) (ks : List PyStr) (hks : ∀ k ∈ ks, V.Name k)
    (d : Verif.Attrs) (hd : V.Tidy d) :
    ∃ d', overwrite U ⟨dn, o⟩ ks d = .ok d' ∧ V.Tidy d' ∧
      ∀ n v, (Returned o ks n → (Has d' n v ↔ Has o n v)) ∧ (¬ Returned o ks n → (Has d' n v ↔ Has d n v)) := by
  induction ks generalizing d with
  | nil => exact ⟨d, rfl, hd, fun n v => ⟨fun ⟨⟨k, hk, _⟩, _⟩ => (by cases hk), fun _ => Iff.rfl⟩⟩
  | cons k ks ih =>
    have hk := hks k List.mem_cons_self
    have hks' : ∀ k ∈ ks, V.Name k := fun x hx => hks x (List.mem_cons_of_mem _ hx)
    obtain ⟨r, hr, hspec⟩ := Match.get_spec hU (wellNamed ho.toNamed dn) hk.ascii
    cases r with
    | none =>
      obtain ⟨d', h1, h2, h3⟩ := ih hks' d hd
      refine ⟨d', by simp only [overwrite, hr]; exact h1, h2, fun n v => ?_⟩
      have hno : ¬ ∃ p ∈ o, fold p.1.toBytes = fold k.toBytes := by
        rintro ⟨p, hp, e⟩
        have := (hspec p.2).mpr ⟨p.1, hp, e⟩
        cases this
      have hret : Returned o (k :: ks) n ↔ Returned o ks n := by
        constructor
        · rintro ⟨⟨x, hx, e⟩, hp⟩
          rcases List.mem_cons.mp hx with rfl | hx
          · subst e; exact absurd hp hno
          · exact ⟨⟨x, hx, e⟩, hp⟩
        · rintro ⟨⟨x, hx, e⟩, hp⟩
          exact ⟨⟨x, List.mem_cons_of_mem _ hx, e⟩, hp⟩
      rw [hret]; exact h3 n v
    | some vs =>
      obtain ⟨key, hm, hs⟩ := (hspec vs).mp rfl
      have hs : fold key.toBytes = fold k.toBytes := hs
      have hv : ∀ v ∈ mkSet vs, V.value (fold k.toBytes) v := fun v h => by
        rw [← hs]; exact ho.values _ hm v (Delta.mem_mkSet.mp h)
      obtain ⟨d', h1, h2, h3⟩ := ih hks' _ (set_tidy hU hd hk hv (Delta.mkSet_nodup vs))
      refine ⟨d', by simp only [overwrite, hr]; exact h1, h2, fun n v => ⟨fun hret => ?_, fun hret => ?_⟩⟩
      · by_cases hr' : Returned o ks n
        · exact (h3 n v).1 hr'
        · rw [(h3 n v).2 hr', has_set hU hd.toNamed hk]
          have hn : n = fold k.toBytes := by
            obtain ⟨⟨x, hx, e⟩, hp⟩ := hret
            rcases List.mem_cons.mp hx with rfl | hx
            · exact e.symm
            · exact absurd ⟨⟨x, hx, e⟩, hp⟩ hr'
          rw [if_pos hn, Delta.mem_mkSet, hn, ← hs, has_at ho.toNamed hm]
      · have hr' : ¬ Returned o ks n := fun ⟨⟨x, hx, e⟩, hp⟩ => hret ⟨⟨x, List.mem_cons_of_mem _ hx, e⟩, hp⟩
        rw [(h3 n v).2 hr', has_set hU hd.toNamed hk, if_neg]
        intro hn
        exact hret ⟨⟨k, List.mem_cons_self, hn.symm⟩, (key, vs), hm, hs.trans hn.symm⟩

/-- **C74** An entry with edits on record is not fetched. -/
theorem dirty (s : St) (ha : s.deleted = false) (hj : s.journal ≠ []) : fetch s = .error .dirty := by simp [fetch, ha, hj]

/-- **C74** Edits made while a fetch is in flight are not dropped either: the answer is, and the caller hears of it. -/
theorem dirty_late (s : St) (hj : s.journal ≠ []) (results : List Verif.Attrs) (wanted : List PyStr) :
    (fetched env s results wanted).1 = s ∧ (fetched env s results wanted).2 ≠ none := by
  unfold fetched
  split
  · rw [if_pos hj]; exact ⟨rfl, by simp⟩
  · exact ⟨rfl, by simp⟩

/-- **C74** If the server does not return just one entry, nothing changes and the caller hears of it. -/
theorem absent (s : St) (results : List Verif.Attrs) (wanted : List PyStr) (h : results.length ≠ 1) :
    fetched env s results wanted = (s, some .notPresent) := by
  match results, h with
  | [], _ => rfl
  | [_], h => exact absurd rfl h
  | _ :: _ :: _, _ => rfl

/-- **C74** A fetch of some attributes updates those that were returned. -/
theorem fetched_some_partial (hU : Sane env.U) (hP : V.Plain) (s : St) (ha : s.deleted = false) (hj : s.journal = []) (hd : V.Tidy s.remote)
    (o : Verif.Attrs) (ho : V.Tidy o) (wanted : List PyStr) (hw : wanted ≠ []) (hn : ∀ k ∈ wanted, V.Name k) :
    (fetched env s [o] wanted).2 = none ∧ (fetched env s [o] wanted).1.journal = [] ∧
    ∀ n v, (Returned o wanted n → (Has (fetched env s [o] wanted).1.attrs n v ↔ Has o n v)) ∧
      (¬ Returned o wanted n → (Has (fetched env s [o] wanted).1.attrs n v ↔ Has s.remote n v)) := by
  obtain ⟨d', h1, h2, h3⟩ := overwrite_tidy hU s.dn ho wanted hn s.remote hd
  have he : fetched env s [o] wanted = undo env { s with remote := d' } := by simp [fetched, hj, hw, h1]
  obtain ⟨h4, h5, _, _, h6⟩ := C50.undo_restores_partial (env := env) hU hP { s with remote := d' } h2 ha
  rw [he]
  exact ⟨h4, h5, fun n v => ⟨fun h => (h6 n v).trans ((h3 n v).1 h), fun h => (h6 n v).trans ((h3 n v).2 h)⟩⟩

theorem keys_names (hU : Sane env.U) {o : Verif.Attrs} (ho : V.Named o) : (∀ k ∈ keys env o, V.Name k) ∧ ∀ p ∈ o, ∃ k ∈ keys env o, fold k.toBytes = fold p.1.toBytes := by
  have hcls : ∀ k ∈ Server.classKeys env, k.Ascii ∧ fold k.toBytes = Server.ascii "objectclass" := by
    intro k hk
    unfold Server.classKeys at hk
    split at hk <;> simp only [List.mem_cons, List.not_mem_nil, or_false] at hk <;> rcases hk with rfl | rfl <;> decide +kernel
  refine ⟨fun k hk => ?_, fun p hp => ?_⟩
  · rcases List.mem_append.mp hk with hk | hk
    · obtain ⟨hk1, hk2⟩ := List.mem_filter.mp hk
      cases hf : Attrs.find env.U k o with
      | none => rw [hf] at hk2; cases hk2
      | some vs =>
        obtain ⟨k', hm, hl⟩ := Match.find_mem hf
        have hk' := ho.names _ hm
        have := (lower_eq_iff hU hk'.ascii (hcls k hk1).1).mp hl
        exact ⟨(hcls k hk1).1, by rw [← this.1, hk'.kind]; exact congrArg V.text this.2⟩
    · obtain ⟨p, hp, rfl⟩ := List.mem_map.mp (List.mem_filter.mp hk).1
      exact ho.names p ((Server.sortItems_perm o).mem_iff.mp hp)
  · cases hc : Server.isClassKey env.U p.1 with
    | false =>
      exact ⟨p.1, List.mem_append_right _ (List.mem_filter.mpr ⟨List.mem_map.mpr ⟨p, (Server.sortItems_perm o).mem_iff.mpr hp, rfl⟩, by simp [hc]⟩), rfl⟩
    | true =>
      have hpn := ho.names p hp
      have hkc : fold p.1.toBytes = Server.ascii "objectclass" := by
        have := (Server.isClassKey_iff hU hpn.ascii).mp hc
        exact Eq.trans this (by decide +kernel)
      obtain ⟨c, hcm, hct⟩ : ∃ c ∈ Server.classKeys env, c.isText = p.1.isText := by
        unfold Server.classKeys
        cases p.1.isText <;> split <;> simp [PyStr.isText]
      have hlow : p.1.lower env.U = c.lower env.U := (lower_eq_iff hU hpn.ascii (hcls c hcm).1).mpr ⟨hct.symm, hkc.trans (hcls c hcm).2.symm⟩
      refine ⟨c, List.mem_append_left _ (List.mem_filter.mpr ⟨hcm, ?_⟩), (hcls c hcm).2.trans hkc.symm⟩
      cases hf : Attrs.find env.U c o with
      | none => exact absurd hlow (Match.find_none hf p.1 p.2 hp)
      | some _ => rfl

/-- **C74** A fetch of everything makes the local view the entry that was returned. -/
theorem fetched_all_partial (hU : Sane env.U) (hP : V.Plain) (s : St) (ha : s.deleted = false) (hj : s.journal = [])
    (o : Verif.Attrs) (ho : V.Tidy o) :
    (fetched env s [o] []).2 = none ∧ (fetched env s [o] []).1.journal = [] ∧ (fetched env s [o] []).1.complete = true ∧
    ∀ n v, (Has (fetched env s [o] []).1.attrs n v ↔ Has o n v) ∧ (Has (fetched env s [o] []).1.remote n v ↔ Has o n v) := by
  obtain ⟨hk1, hk2⟩ := keys_names hU ho.toNamed
  have hnil : V.Tidy [] := ⟨⟨by simp, .nil⟩, by simp, by simp⟩
  obtain ⟨d', h1, h2, h3⟩ := overwrite_tidy hU s.dn ho (keys env o) hk1 [] hnil
  have he : fetched env s [o] [] = undo env { s with remote := d', complete := true } := by simp [fetched, hj, h1]
  obtain ⟨d, h4, h5⟩ := C50.undo_eq hU hP { s with remote := d', complete := true } h2 ha
  have hr : ∀ n v, Has d' n v ↔ Has o n v := by
    intro n v
    by_cases h : Returned o (keys env o) n
    · exact (h3 n v).1 h
    · rw [(h3 n v).2 h]
      refine ⟨fun ⟨p, hp, _⟩ => by (cases hp), fun ⟨p, hp, e, hv⟩ => absurd ?_ h⟩
      obtain ⟨k, hk, e'⟩ := hk2 p hp
      exact ⟨⟨k, hk, e'.trans e⟩, p, hp, e⟩
  rw [he, h4]
  exact ⟨rfl, rfl, rfl, fun n v => ⟨(h5.same n v).trans (hr n v), hr n v⟩⟩

/-! ### Where it fails -/

/-- **C74 fails**: attributes that were asked for and that the server does not have any more stay as they were. -/
theorem stale (hU : Sane env.U) (hP : V.Plain) (s : St) (ha : s.deleted = false) (hj : s.journal = []) (hd : V.Tidy s.remote)
    (o : Verif.Attrs) (ho : V.Tidy o) (wanted : List PyStr) (hw : wanted ≠ []) (hn : ∀ k ∈ wanted, V.Name k) (k : PyStr) (_ : k ∈ wanted)
    (hk : ∀ p ∈ o, fold p.1.toBytes ≠ fold k.toBytes) (v : PyStr) (hv : Has s.remote (fold k.toBytes) v) :
    Has (fetched env s [o] wanted).1.attrs (fold k.toBytes) v :=
  (((fetched_some_partial hU hP s ha hj hd o ho wanted hw hn).2.2 _ v).2 fun ⟨_, p, hp, e⟩ => hk p hp e).mpr hv

/-- **C74 fails**: asked for with text, the attribute of an entry from a search is there twice, the old values unchanged. -/
theorem twin : (fetched C50.env1 C49.found [[(C49.bytes "mail", [C49.bytes "b@new"])]] [.text "mail".toList]).2 = none ∧
    (fetched C50.env1 C49.found [[(C49.bytes "mail", [C49.bytes "b@new"])]] [.text "mail".toList]).1.attrs =
      [(C49.bytes "cn", [C49.bytes "bob"]), (C49.bytes "mail", [C49.bytes "b@x", C49.bytes "b@y"]), (.text "mail".toList, [C49.bytes "b@new"])] := by
  decide +kernel

/-! ### Examples -/

/-- What the server returns. -/
def news : Verif.Attrs := [(C49.bytes "objectClass", [C49.bytes "top"]), (C49.bytes "Mail", [C49.bytes "b@new"])]

theorem news_tidy : allOctets.Tidy news := by
  refine ⟨⟨?_, ?_⟩, ?_, ?_⟩
  · intro p hp
    rcases List.mem_cons.mp hp with rfl | hp
    · exact ⟨by decide +kernel, rfl⟩
    · rw [List.mem_singleton.mp hp]; exact ⟨by decide +kernel, rfl⟩
  · decide +kernel
  · intro p hp v hv
    refine ⟨?_, PyStr.ascii_decodable ?_⟩ <;> revert p v <;> decide +kernel
  · decide +kernel

example : ∀ n v, Has (fetched C50.env1 C49.found [news] []).1.attrs n v ↔ Has news n v := fun n v =>
  ((fetched_all_partial (env := C50.env1) asciiTables_sane C50.allOctets_plain C49.found rfl rfl news news_tidy).2.2.2 n v).1

/-- The common name is not in the answer and stays. -/
example : Has (fetched C50.env1 C49.found [news] [C49.bytes "cn", C49.bytes "mail"]).1.attrs (Server.ascii "cn") (C49.bytes "bob") :=
  stale (env := C50.env1) asciiTables_sane C50.allOctets_plain C49.found rfl rfl C49.found_tidy news news_tidy _ (by simp)
    (by
      intro k hk
      simp only [List.mem_cons, List.not_mem_nil, or_false] at hk
      rcases hk with rfl | rfl <;> exact ⟨by decide +kernel, rfl⟩)
    (C49.bytes "cn") (by simp) (by decide +kernel) _ ⟨_, List.mem_cons_self, by decide +kernel, List.mem_cons_self⟩

end Verif.C74
