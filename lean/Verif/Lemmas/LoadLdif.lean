import Verif.Lemmas.Directory
import Verif.Model.LoadLdif
import Verif.Props.C31
import Verif.Props.C70
/-
What the LDIF reader passes on, and adding it to a tree.
-/
namespace Verif.LoadLdif
open Verif.Tree Verif.Dn Verif.Spec
open Verif.Server (Env)
open Verif.Ldif (Record Parser makeEntry Under ByteNames Apart)

/-- An entry made of octets. -/
def Made (U : Unicode) (e : Entry) : Prop := ∃ dn data, makeEntry U dn data = .ok e

/-- What was passed on. -/
structure Passed (U : Unicode) (p : Parser) : Prop where
  kind : p.isDelta = false
  mode : p.mode = .header ∨ p.mode = .waitForDn ∨ p.mode = .inEntry
  got : ∀ r ∈ p.got, ∃ e, r = .entry e ∧ Made U e

theorem state_passed {U : Unicode} {p q : Parser} {l : Bytes} (hp : Passed U p) (h : Ldif.state U p l = .ok q) : Passed U q := by
  obtain ⟨h1, h2, h3⟩ := hp
  unfold Ldif.state at h
  split at h
  · cases h
  · simp only [Ldif.stateWaitForDn] at h
    repeat' split at h
    all_goals first
      | (cases h; done)
      | (cases h; exact ⟨h1, h2, h3⟩)
      | (cases h; exact ⟨h1, by simp_all, h3⟩)
  · simp only [Ldif.stateInEntry] at h
    split at h
    · split at h
      · split at h
        · cases h
        · rename_i e he
          cases h
          refine ⟨h1, .inr (.inl rfl), fun r hr => ?_⟩
          rcases List.mem_append.mp hr with hr | hr
          · exact h3 r hr
          · exact ⟨e, List.mem_singleton.mp hr, _, _, he⟩
      · split at h
        · cases h
        · cases h; exact ⟨h1, h2, h3⟩
    · cases h
  all_goals
    rename_i hm
    rw [hm] at h2
    simp at h2

theorem logicalLine_passed {U : Unicode} {p q : Parser} {l : Bytes} (hp : Passed U p) (h : Ldif.logicalLine U p l = .ok q) :
    Passed U q := by
  unfold Ldif.logicalLine at h
  split at h
  · cases h; exact hp
  · split at h
    · unfold Ldif.stateHeader at h
      split at h
      · cases h
      · split at h
        · exact state_passed (p := { p with mode := .waitForDn }) ⟨hp.kind, .inr (.inl rfl), hp.got⟩ h
        · split at h
          · cases h
          · split at h
            · cases h
            · cases h; exact ⟨hp.kind, .inr (.inl rfl), hp.got⟩
    · exact state_passed hp h

theorem lineReceived_passed {U : Unicode} {p q : Parser} {l : Bytes} (hp : Passed U p) (h : Ldif.lineReceived U p l = .ok q) :
    Passed U q := by
  have hflush : ∀ p', Ldif.flush U p = .ok p' → Passed U p' := by
    intro p' hf
    unfold Ldif.flush at hf
    split at hf
    · cases hf; exact hp
    · exact logicalLine_passed hp hf
  by_cases hl : l = []
  · subst hl
    rw [Ldif.lineReceived_blank] at h
    cases hf : Ldif.flush U p with
    | error e => rw [hf] at h; cases h
    | ok p' =>
      rw [hf] at h
      simp only [Except.bind] at h
      cases hg : Ldif.logicalLine U p' [] with
      | error e => rw [hg] at h; cases h
      | ok q' =>
        rw [hg] at h
        cases h
        have := logicalLine_passed (hflush _ hf) hg
        exact ⟨this.kind, this.mode, this.got⟩
  · by_cases hs : l.head? = some 32
    · obtain ⟨r, rfl⟩ : ∃ r, l = 32 :: r := by
        cases l with
        | nil => exact absurd rfl hl
        | cons b r => simp only [List.head?_cons, Option.some.injEq] at hs; exact ⟨r, by rw [hs]⟩
      cases hx : p.lastLine with
      | none =>
        have e : Ldif.lineReceived U p (32 :: r) = .error .startsWithSpace := by unfold Ldif.lineReceived; rw [hx]; rfl
        rw [e] at h; cases h
      | some x =>
        have e : Ldif.lineReceived U p (32 :: r) = .ok { p with lastLine := some (x ++ r) } := by
          unfold Ldif.lineReceived; rw [hx]; rfl
        rw [e] at h; cases h
        exact ⟨hp.kind, hp.mode, hp.got⟩
    · rw [Ldif.lineReceived_fresh ⟨hl, hs⟩] at h
      cases hf : Ldif.flush U p with
      | error e => rw [hf] at h; cases h
      | ok p' =>
        rw [hf] at h
        cases h
        exact ⟨(hflush _ hf).kind, (hflush _ hf).mode, (hflush _ hf).got⟩

theorem drain_passed {U : Unicode} {rest : Bytes} {p : Parser} {ls : List Bytes} (hp : Passed U p) :
    Passed U (Ldif.drain U rest p ls).parser := by
  induction ls generalizing p with
  | nil =>
    simp only [Ldif.drain]
    split <;> exact hp
  | cons l ls ih =>
    simp only [Ldif.drain]
    split
    · exact hp
    · split
      · exact hp
      · rename_i q hq
        exact ih (lineReceived_passed hp hq)

theorem feed_passed {U : Unicode} {chunks : List Bytes} {r : Ldif.Reader} (hr : Passed U r.parser) :
    Passed U (Ldif.feed U r chunks).parser := by
  induction chunks generalizing r with
  | nil => exact hr
  | cons c cs ih =>
    refine ih ?_
    unfold Ldif.dataReceived
    split
    · exact hr
    · exact drain_passed hr

/-- The reader passes on entries made of octets, and nothing else. -/
theorem parse_made (U : Unicode) (chunks : List Bytes) :
    ∃ es : List Entry, (Ldif.parse U false chunks).1 = es.map .entry ∧ ∀ e ∈ es, Made U e := by
  have h : Passed U (Ldif.feed U (Ldif.fresh false) chunks).parser :=
    feed_passed ⟨rfl, .inl rfl, fun r hr => by cases hr⟩
  have e : (Ldif.parse U false chunks).1 = (Ldif.feed U (Ldif.fresh false) chunks).parser.got := by
    unfold Ldif.parse Ldif.connectionLost
    split <;> rfl
  rw [e]
  have h3 := h.got
  generalize (Ldif.feed U (Ldif.fresh false) chunks).parser.got = l at h3
  clear h e
  induction l with
  | nil => exact ⟨[], rfl, by simp⟩
  | cons r l ih =>
    obtain ⟨e, rfl, he⟩ := h3 r List.mem_cons_self
    obtain ⟨es, h1, h2⟩ := ih fun r hr => h3 r (List.mem_cons_of_mem _ hr)
    refine ⟨e :: es, by rw [h1]; rfl, fun x hx => ?_⟩
    rcases List.mem_cons.mp hx with rfl | hx
    · exact he
    · exact h2 x hx

/-- An entry as octets: every attribute and value once. -/
structure Octets (d : Verif.Attrs) : Prop where
  names : ByteNames d
  apart : Apart d
  once : ∀ p ∈ d, p.2.Nodup
  values : ∀ p ∈ d, ∀ v ∈ p.2, v.isText = false

theorem under_values {d : Verif.Attrs} (h : Octets d) {a v : PyStr} (hu : Under d a v) : v.isText = false := by
  obtain ⟨p, hp, _, hv⟩ := hu
  exact h.values p hp v hv

theorem built_octets {U : Unicode} {l : Verif.Attrs} (hn : ByteNames l) (hv : ∀ p ∈ l, ∀ v ∈ p.2, v.isText = false) :
    Octets (buildAttrs U l) ∧ ∀ a v, Under (buildAttrs U l) a v ↔ Under l a v := by
  obtain ⟨h1, h2, h3, h4⟩ := Ldif.buildAttrs_facts (U := U) hn
  refine ⟨⟨h1, h2, h3, fun p hp v hm => ?_⟩, h4⟩
  obtain ⟨q, hq, _, hm'⟩ := (h4 p.1 v).mp ⟨p, hp, rfl, hm⟩
  exact hv q hq v hm'

theorem made_octets {U : Unicode} {e : Entry} (h : Made U e) : Octets e.attrs := by
  obtain ⟨dn, data, h⟩ := h
  unfold makeEntry at h
  split at h
  · cases h
  · cases h
    refine (built_octets ?_ ?_).1
    · intro p hp
      obtain ⟨q, _, rfl⟩ := List.mem_map.mp hp
      exact ⟨_, rfl⟩
    · intro p hp v hv
      obtain ⟨q, _, rfl⟩ := List.mem_map.mp hp
      obtain ⟨b, _, rfl⟩ := List.mem_map.mp hv
      rfl

theorem apart_unique {d : Verif.Attrs} (h : Apart d) {p q : PyStr × List PyStr} (hp : p ∈ d) (hq : q ∈ d) (hs : SameName p.1 q.1) :
    p.2 = q.2 := by
  induction d with
  | nil => cases hp
  | cons x d ih =>
    simp only [Apart, List.map_cons, List.pairwise_cons] at h
    rcases List.mem_cons.mp hp with e | hp' <;> rcases List.mem_cons.mp hq with e' | hq'
    · rw [e, e']
    · rw [e] at hs; exact absurd hs (h.1 _ (List.mem_map.mpr ⟨q, hq', rfl⟩))
    · rw [e'] at hs; exact absurd hs.symm (h.1 _ (List.mem_map.mpr ⟨p, hp', rfl⟩))
    · exact ih h.2 hp' hq'

/-- `items()` of octets lists the same values under the same names. -/
theorem items_octets (env : Env) {e : Entry} (h : Octets e.attrs) : ∃ l, Server.items env e = .ok l ∧
    ByteNames l ∧ (∀ p ∈ l, ∀ v ∈ p.2, v.isText = false) ∧ ∀ a v, Under l a v ↔ Under e.attrs a v := by
  have hperm := Server.sortItems_perm e.attrs
  have hr := Server.otherItems_eq (U := env.U) (Server.sortItems e.attrs)
    (fun k vs hm _ => .inr (h.values _ (hperm.mem_iff.mp hm)))
  have heq : ∃ l, Server.items env e = .ok l := ⟨_, by simp only [Server.items, hr, bind, Except.bind, pure, Except.pure]; rfl⟩
  obtain ⟨l, heq⟩ := heq
  have hB := C70.items_octets (fun p hp => by obtain ⟨b, hb⟩ := h.names p hp; rw [hb]; rfl) heq
  have heq' := heq
  simp only [Server.items, hr, bind, Except.bind, pure, Except.pure, Except.ok.injEq] at heq'
  have hsub : ∀ p ∈ l, ∃ q ∈ e.attrs, SameName q.1 p.1 ∧ p.2.Perm q.2 := by
    intro p hp
    rw [← heq'] at hp
    rcases List.mem_append.mp hp with hc | hc
    · obtain ⟨k, hk, hf⟩ := List.mem_filterMap.mp hc
      split at hf
      · rename_i v vs hv
        cases hf
        obtain ⟨k1, hk1, hl⟩ := Match.find_mem hv
        have h1 := h.names _ hk1
        have h2 := hB _ (by rw [← heq']; exact hp)
        exact ⟨_, hk1, (Ldif.lower_bytes h1 h2).mp hl, Delta.sortBytes_perm _⟩
      · cases hf
    · obtain ⟨q, hq, rfl⟩ := List.mem_map.mp hc
      exact ⟨q, hperm.mem_iff.mp (List.mem_filter.mp hq).1, rfl, Delta.sortBytes_perm _⟩
  refine ⟨l, heq, hB, fun p hp v hv => ?_, fun a v => ⟨?_, ?_⟩⟩
  · obtain ⟨q, hq, _, hm⟩ := hsub p hp
    exact h.values q hq v (hm.mem_iff.mp hv)
  · rintro ⟨p, hp, hs, hv⟩
    obtain ⟨q, hq, hs', hm⟩ := hsub p hp
    exact ⟨q, hq, hs'.trans hs, hm.mem_iff.mp hv⟩
  · rintro ⟨q, hq, hs, hv⟩
    rw [← heq']
    cases hc : Server.isClassKey env.U q.1 with
    | false =>
      exact ⟨(q.1, Delta.sortBytes q.2), List.mem_append.mpr (.inr (List.mem_map.mpr ⟨q, List.mem_filter.mpr
        ⟨hperm.mem_iff.mpr hq, by simp [hc]⟩, rfl⟩)), hs, (Delta.sortBytes_perm _).mem_iff.mpr hv⟩
    | true =>
      obtain ⟨b, hb⟩ := h.names q hq
      have hcls : q.1.lower env.U = (Server.className).lower env.U := by
        simp only [Server.isClassKey, hb, PyStr.lower, Bool.or_eq_true, decide_eq_true_eq, reduceCtorEq, false_or, PyStr.bytes.injEq] at hc
        rw [hb]
        simp only [PyStr.lower, hc, Server.className, PyStr.bytes.injEq]
        decide +kernel
      have hmem : Server.className ∈ Server.classKeys env := by
        unfold Server.classKeys Server.className
        split <;> simp
      have hfind : e.attrs.find env.U Server.className = some q.2 := by
        cases hf : e.attrs.find env.U Server.className with
        | none => exact absurd hcls (Match.find_none hf q.1 q.2 hq)
        | some ws =>
          obtain ⟨k', hm', hl'⟩ := Match.find_mem hf
          have hsame : SameName q.1 k' := (Ldif.lower_bytes (U := env.U) ⟨b, hb⟩ (h.names _ hm')).mp (hcls.trans hl'.symm)
          exact congrArg some (apart_unique h.apart hm' hq hsame.symm)
      obtain ⟨w, ws, hw⟩ := List.exists_cons_of_ne_nil (List.ne_nil_of_mem hv)
      refine ⟨(Server.className, Delta.sortBytes q.2), List.mem_append.mpr (.inl (List.mem_filterMap.mpr ⟨_, hmem, ?_⟩)), ?_,
        (Delta.sortBytes_perm _).mem_iff.mpr hv⟩
      · rw [hfind, hw]
      · exact ((Ldif.lower_bytes (U := env.U) ⟨b, hb⟩ ⟨_, rfl⟩).mp hcls).symm.trans hs

end Verif.LoadLdif
