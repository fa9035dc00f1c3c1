import Verif.Lemmas.LoadLdif
import Verif.Props.C24
import Verif.Props.C29
import Verif.Props.C30
/-
C84  Loading LDIF into memory.
-/
namespace Verif.C84
open Verif.Tree Verif.Dn Verif.Spec Verif.LoadLdif
open Verif.Server (Env ascii)
open Verif.Ldif (Under)

/-! What should happen. -/

/-- What is wrong with an entry, given the names of those before it. -/
def problem (U : Unicode) (seen : List Name) (e : Entry) : Option PyErr :=
  match e.dn with
  | [] => if [] ∈ seen then some .indexError else some .noSuchObject
  | _ :: up =>
    if foldDn U up ∉ seen then some .noSuchObject
    else if foldDn U e.dn ∈ seen then some .alreadyExists
    else none

/-- Whether a problem ends the loading: a missing parent is put to both hooks. -/
def ends (hooks : Hooks) (e : Entry) (x : PyErr) : Option PyErr :=
  if x = .noSuchObject then (hooks.lookupFailed x e).bind fun x => hooks.addFailed x e else hooks.addFailed x e

/-- The entries that are taken, and the failure that ends the loading. -/
def taken (U : Unicode) (hooks : Hooks) (seen : List Name) : List Entry → List Entry × Option PyErr
  | [] => ([], none)
  | e :: es =>
    match problem U seen e with
    | none => (e :: (taken U hooks (foldDn U e.dn :: seen) es).1, (taken U hooks (foldDn U e.dn :: seen) es).2)
    | some x =>
      match ends hooks e x with
      | none => taken U hooks seen es
      | some y => ([], some y)

/-- An entry of the tree is the one that was read: the same name up to case and the same values, each once. -/
structure Stored (U : Unicode) (e e' : Entry) : Prop where
  name : Dn.eq U e'.dn e.dn = true
  values : ∀ a v, Under e'.attrs a v ↔ Under e.attrs a v
  attributes : e'.attrs.Pairwise fun p q => ¬ SameName p.1 q.1
  once : ∀ p ∈ e'.attrs, p.2.Nodup

/-- The tree holds these entries and no others. -/
def Contains (U : Unicode) (h : Heap) (es : List Entry) : Prop :=
  (∀ e ∈ es, ∃ j n, lookup U h 0 e.dn = .ok j ∧ h[j]? = some n ∧ Stored U e n.entry) ∧
    (∀ d, (∀ e ∈ es, Dn.eq U e.dn d = false) → lookup U h 0 d = .error .noSuchObject) ∧
    ∀ j n, Below h 0 j → h[j]? = some n → ∃ e ∈ es, Stored U e n.entry

/-- RDNs that are equal are spelled alike. -/
def Alike (U : Unicode) (es : List Entry) : Prop :=
  ∀ e ∈ es, ∀ e' ∈ es, ∀ r r' up up', e.dn = r :: up → e'.dn = r' :: up' → Rdn.eq U r r' = true → r = r'

/-! Adding one entry. -/

variable {env : Env} {hooks : Hooks} {R : Rdn → Prop} {root : Name} {h : Heap} {D : Directory}

theorem addTo_request {e : Entry} {rdn : Rdn} {up : Dn} (hd : e.dn = rdn :: up) {l : Verif.Attrs} (hl : Server.items env e = .ok l)
    {p : Nat} (hp : lookup env.U h 0 up = .ok p) : addTo env h p e = request env.U h (.add up rdn l) := by
  simp only [addTo, hd, request, hp, hl]
  cases h1 : addChild env.U h p rdn [] with
  | error x =>
    have : addChild env.U h p rdn l = .error x := by
      unfold addChild at h1 ⊢
      split
      · rename_i hn; rw [hn] at h1; exact h1
      · rename_i hn
        rw [hn] at h1
        simp only at h1
        split at h1
        · rename_i hk; rw [if_pos hk, h1]
        · cases h1
    rw [this]
  | ok r => cases addChild env.U h p rdn l <;> rfl

theorem addEntry_step (hs : Sim env.U R root h D) (hR : Spelled env.U R) {e : Entry} (hr : ∀ r up, e.dn = r :: up → R r)
    {l : Verif.Attrs} (hl : Server.items env e = .ok l) :
    match problem env.U (D.map (·.1)) e with
    | none => (addEntry env hooks h e).2 = none ∧ Sim env.U R root (addEntry env hooks h e).1 (D ++ [(foldDn env.U e.dn, l)])
    | some x => addEntry env hooks h e = (h, ends hooks e x) := by
  have hin : ∀ x : Name, x ∈ D.map (·.1) ↔ D.has x = true := by
    intro x
    rw [has_iff, List.mem_map]
    constructor
    · rintro ⟨⟨y, as⟩, hm, rfl⟩; exact ⟨as, hm⟩
    · rintro ⟨as, hm⟩; exact ⟨_, hm, rfl⟩
  cases hd : e.dn with
  | nil =>
    simp only [problem, hd]
    have hu : Dn.up e.dn = [] := by rw [hd]; rfl
    by_cases hh : D.has (foldDn env.U []) = true
    · rw [if_pos ((hin []).mpr hh)]
      obtain ⟨p, n, hp, _⟩ := hs.lookup_has hR hh
      have hq : addTo env h p e = (h, some .indexError) := by simp only [addTo, hd]
      simp only [addEntry, hu, hp, hq, recover, ends]
      rw [if_neg (by decide)]
    · rw [if_neg (fun hm => hh ((hin []).mp hm))]
      have hp := hs.lookup_not hR hh
      simp only [addEntry, hu, hp, ends, if_true]
      cases hooks.lookupFailed .noSuchObject e <;> rfl
  | cons rdn up =>
    have hu : Dn.up e.dn = up := by rw [hd]; rfl
    simp only [problem, hd]
    by_cases hh : D.has (foldDn env.U up) = true
    · rw [if_neg (by rw [Classical.not_not]; exact (hin _).mpr hh)]
      obtain ⟨p, n, hp, _⟩ := hs.lookup_has hR hh
      have hstep := step_sim hs hR (.add up rdn l) (hr _ _ hd)
      have hq := addTo_request hd hl hp
      have hadd : addEntry env hooks h e = recover hooks e (request env.U h (.add up rdn l)) := by
        simp only [addEntry, hu, hp, hq]
      by_cases h2 : D.has (foldDn env.U (rdn :: up)) = true
      · rw [if_pos ((hin _).mpr h2)]
        have hst : Directory.step env.U root D (.add up rdn l) = (D, some .alreadyExists) := by
          simp only [Directory.step, hh]
          rw [if_neg (by simp)]; exact if_pos h2
        rw [hst] at hstep
        have hreq : request env.U h (.add up rdn l) = (h, some .alreadyExists) := by
          have h1 := hstep.1
          simp only [request, hp] at h1 ⊢
          split at h1
          · cases h1
          · rename_i x hx; simp only [Option.some.injEq] at h1; rw [h1]
        simp [hadd, hreq, recover, ends]
      · rw [if_neg (fun hm => h2 ((hin _).mp hm))]
        have hst : Directory.step env.U root D (.add up rdn l) = (D ++ [(foldDn env.U (rdn :: up), l)], none) := by
          simp only [Directory.step, hh]
          rw [if_neg (by simp)]; exact if_neg h2
        rw [hst] at hstep
        obtain ⟨h1, h3⟩ := hstep
        have : recover hooks e (request env.U h (.add up rdn l)) = ((request env.U h (.add up rdn l)).1, none) := by
          generalize request env.U h (.add up rdn l) = q at h1
          obtain ⟨a, b⟩ := q
          simp only at h1
          subst h1; rfl
        rw [hadd, this]
        exact ⟨rfl, h3⟩
    · rw [if_pos (fun hm => hh ((hin _).mp hm))]
      have hp := hs.lookup_not hR hh
      simp only [addEntry, hu, hp, ends, if_true]
      cases hooks.lookupFailed .noSuchObject e <;> rfl

/-! All entries. -/

theorem taken_run (hR : Spelled env.U R) (es : List Entry) (hr : ∀ e ∈ es, ∀ r up, e.dn = r :: up → R r)
    (hm : ∀ e ∈ es, Made env.U e) : ∀ (h : Heap) (D : Directory) (seen : List Name), Sim env.U R root h D →
      (∀ x, x ∈ seen ↔ x ∈ D.map (·.1)) →
      ∃ h' D', gotAll env hooks (some (h, none)) (es.map .entry) = .ok (some (h', (taken env.U hooks seen es).2)) ∧
        Sim env.U R root h' (D ++ D') ∧ D'.map (·.1) = (taken env.U hooks seen es).1.map (fun e => foldDn env.U e.dn) ∧
        ∀ p ∈ D', ∃ e ∈ (taken env.U hooks seen es).1, foldDn env.U e.dn = p.1 ∧ Server.items env e = .ok p.2 := by
  have stop : ∀ (es : List Entry) (h : Heap) (x : PyErr),
      gotAll env hooks (some (h, some x)) (es.map .entry) = .ok (some (h, some x)) := by
    intro es h x
    induction es with
    | nil => rfl
    | cons e es ih => simpa [gotAll, gotEntry, bind, Except.bind] using ih
  induction es with
  | nil => intro h D seen hs _; exact ⟨h, [], rfl, by simpa using hs, rfl, by simp⟩
  | cons e es ih =>
    intro h D seen hs hseen
    obtain ⟨l, hl, _⟩ := items_octets env (made_octets (hm e List.mem_cons_self))
    have hstep := addEntry_step (hooks := hooks) hs hR (hr e List.mem_cons_self) hl
    have hp : problem env.U (D.map (·.1)) e = problem env.U seen e := by
      unfold problem
      simp only [hseen]
    rw [hp] at hstep
    have ih := ih (fun e he => hr e (List.mem_cons_of_mem _ he)) (fun e he => hm e (List.mem_cons_of_mem _ he))
    have hgo : gotAll env hooks (some (h, none)) ((e :: es).map .entry) =
        gotAll env hooks (some (addEntry env hooks h e)) (es.map .entry) := rfl
    rw [hgo, taken]
    cases hpe : problem env.U seen e with
    | none =>
      rw [hpe] at hstep
      obtain ⟨h1, h2⟩ := hstep
      obtain ⟨h', D', i1, i2, i3, i4⟩ := ih _ _ (foldDn env.U e.dn :: seen) h2 (by
        intro x; simp only [List.mem_cons, hseen, List.map_append, List.map_cons, List.map_nil, List.mem_append, List.mem_singleton,
          List.not_mem_nil, or_false]; exact or_comm)
      refine ⟨h', (foldDn env.U e.dn, l) :: D', ?_, by simpa using i2, by simp [i3], ?_⟩
      · rw [show addEntry env hooks h e = ((addEntry env hooks h e).1, none) from Prod.ext rfl h1]; exact i1
      · intro p hp
        rcases List.mem_cons.mp hp with rfl | hp
        · exact ⟨e, List.mem_cons_self, rfl, hl⟩
        · obtain ⟨e', he', hh⟩ := i4 p hp
          exact ⟨e', List.mem_cons_of_mem _ he', hh⟩
    | some x =>
      rw [hpe] at hstep
      simp only at hstep ⊢
      rw [hstep]
      cases hx : ends hooks e x with
      | none => exact ih h D seen hs hseen
      | some y =>
        exact ⟨h, [], stop es h y, by simpa using hs, rfl, by simp⟩

theorem made_plain {U : Unicode} {e : Entry} (h : Made U e) : ∀ r ∈ e.dn, ∀ a ∈ r, Ava.Plain a := by
  obtain ⟨dn, data, h⟩ := h
  unfold Ldif.makeEntry at h
  split at h
  · cases h
  · rename_i d hd
    cases h
    simp only [Server.readDn, bind, Except.bind] at hd
    split at hd
    · cases hd
    · intro r hr a ha
      obtain ⟨s, _, hs⟩ := mapPy_mem hd r hr
      obtain ⟨t, _, ht⟩ := mapPy_mem hs a ha
      exact Ava.read_plain ht

theorem taken_sublist (U : Unicode) (hooks : Hooks) (seen : List Name) (es : List Entry) : (taken U hooks seen es).1.Sublist es := by
  induction es generalizing seen with
  | nil => exact .refl _
  | cons e es ih =>
    unfold taken
    split
    · exact (ih _).cons_cons _
    · split
      · exact (ih _).cons _
      · exact List.nil_sublist _

theorem nodup_inj {α β : Type} {f : α → β} {l : List α} (h : (l.map f).Nodup) {x y : α} (hx : x ∈ l) (hy : y ∈ l) (e : f x = f y) :
    x = y := by
  induction l with
  | nil => cases hx
  | cons z l ih =>
    simp only [List.map_cons, List.nodup_cons] at h
    rcases List.mem_cons.mp hx with hx | hx <;> rcases List.mem_cons.mp hy with hy | hy
    · rw [hx, hy]
    · rw [hx] at e; exact absurd (List.mem_map.mpr ⟨y, hy, e.symm⟩) h.1
    · rw [hy] at e; exact absurd (List.mem_map.mpr ⟨x, hx, e⟩) h.1
    · exact ih h.2 hx hy

/-- RDNs of the entries to add. -/
def Under1 (es : List Entry) (r : Rdn) : Prop := ∃ e ∈ es, ∃ up, e.dn = r :: up

theorem alike_spelled {U : Unicode} {es : List Entry} (hm : ∀ e ∈ es, Made U e) (ha : Alike U es) : Spelled U (Under1 es) := by
  refine ⟨?_, ?_⟩
  · rintro r ⟨e, he, up, hd⟩ a ha'
    exact made_plain (hm e he) r (by rw [hd]; exact List.mem_cons_self) a ha'
  · rintro r r' ⟨e, he, up, hd⟩ ⟨e', he', up', hd'⟩ heq
    exact ha e he e' he' r r' up up' hd hd' ((Rdn.eq_iff U r r').mpr heq)

/-- The tree that comes out, with what is under each name. -/
theorem loads_sim (env : Env) (hooks : Hooks) (first : Entry) (es : List Entry) (hm : ∀ e ∈ first :: es, Made env.U e)
    (ha : Alike env.U es) :
    ∃ h l D', gotAll env hooks none ((first :: es).map .entry) = .ok (some (h, (taken env.U hooks [foldDn env.U first.dn] es).2)) ∧
      Server.items env first = .ok l ∧ Sim env.U (Under1 es) (foldDn env.U first.dn) h ([(foldDn env.U first.dn, l)] ++ D') ∧
      D'.map (·.1) = (taken env.U hooks [foldDn env.U first.dn] es).1.map (fun e => foldDn env.U e.dn) ∧
      ∀ p ∈ D', ∃ e ∈ (taken env.U hooks [foldDn env.U first.dn] es).1, foldDn env.U e.dn = p.1 ∧ Server.items env e = .ok p.2 := by
  obtain ⟨l, hl, hB, hv, hu⟩ := items_octets env (made_octets (hm first List.mem_cons_self))
  have hR := alike_spelled (fun e he => hm e (List.mem_cons_of_mem _ he)) ha
  obtain ⟨h, D', g1, g2, g3, g4⟩ := taken_run (hooks := hooks) hR es (fun e he r up hd => ⟨e, he, up, hd⟩)
    (fun e he => hm e (List.mem_cons_of_mem _ he)) _ _ [foldDn env.U first.dn]
    (C24.single_sim env.U first.dn l _) (by simp)
  refine ⟨h, l, D', ?_, hl, g2, g3, g4⟩
  have : gotAll env hooks none ((first :: es).map .entry) =
      gotAll env hooks (some ([⟨⟨first.dn, buildAttrs env.U l⟩, none, []⟩], none)) (es.map .entry) := by
    simp only [List.map_cons, gotAll, gotEntry, hl, bind, Except.bind, pure, Except.pure]
  rw [this]
  exact g1

/-- Entries that were read go into a tree that holds those that are taken and no others, and the loading ends in the failure
that the rules give. -/
theorem loads_partial (env : Env) (hooks : Hooks) (first : Entry) (es : List Entry) (hm : ∀ e ∈ first :: es, Made env.U e)
    (ha : Alike env.U es) :
    ∃ h, gotAll env hooks none ((first :: es).map .entry) = .ok (some (h, (taken env.U hooks [foldDn env.U first.dn] es).2)) ∧
      Contains env.U h (first :: (taken env.U hooks [foldDn env.U first.dn] es).1) := by
  have hR := alike_spelled (fun e he => hm e (List.mem_cons_of_mem _ he)) ha
  obtain ⟨h, l, D', g1, hl, g2, g3, g4⟩ := loads_sim env hooks first es hm ha
  refine ⟨h, g1, ?_⟩
  · have hsub := taken_sublist env.U hooks [foldDn env.U first.dn] es
    generalize (taken env.U hooks [foldDn env.U first.dn] es).1 = ks at g3 g4 hsub ⊢
    have hgiven : ∀ p ∈ [(foldDn env.U first.dn, l)] ++ D', ∃ e ∈ first :: ks, foldDn env.U e.dn = p.1 ∧ Server.items env e = .ok p.2 := by
      intro p hp
      rcases List.mem_cons.mp hp with rfl | hp
      · exact ⟨first, List.mem_cons_self, rfl, hl⟩
      · obtain ⟨e, he, hh⟩ := g4 p hp; exact ⟨e, List.mem_cons_of_mem _ he, hh⟩
    have hnames : ([(foldDn env.U first.dn, l)] ++ D').map (·.1) = (first :: ks).map (fun e => foldDn env.U e.dn) := by simp [g3]
    have hmk : ∀ e ∈ first :: ks, Made env.U e := fun e he =>
      hm e ((hsub.cons_cons first).subset he)
    have hst : ∀ e ∈ first :: ks, ∀ p as (n : Node), foldDn env.U e.dn = p → Server.items env e = .ok as → foldDn env.U n.entry.dn = p →
        n.entry.attrs = buildAttrs env.U as → Stored env.U e n.entry := by
      intro e he p as n h1 h2 h3 h4
      obtain ⟨as', i1, i2, i3, i4⟩ := items_octets env (made_octets (hmk e he))
      rw [h2] at i1; cases i1
      obtain ⟨o1, o2⟩ := built_octets (U := env.U) i2 i3
      refine ⟨(Dn.eq_iff _ _ _).mpr (h3.trans h1.symm), fun a v => by rw [h4, o2, i4], ?_, fun p hp => o1.once p (h4 ▸ hp)⟩
      rw [h4]
      exact List.pairwise_map.mp o1.apart
    refine ⟨fun e he => ?_, fun d hno => ?_, fun j n hb hn => ?_⟩
    · have : foldDn env.U e.dn ∈ ([(foldDn env.U first.dn, l)] ++ D').map (·.1) := by
        rw [hnames]; exact List.mem_map.mpr ⟨e, he, rfl⟩
      obtain ⟨p, hp, h1⟩ := List.mem_map.mp this
      obtain ⟨e', he', h2, h3⟩ := hgiven p hp
      have hnd := g2.nodup
      rw [hnames] at hnd
      have : e' = e := nodup_inj hnd he' he (h2.trans h1)
      subst this
      obtain ⟨j, n, hb, hn, h5, h6⟩ := g2.complete p.1 p.2 hp
      refine ⟨j, n, ?_, hn, hst e' he _ p.2 n h2 h3 h5 h6⟩
      exact (lookup_iff g2.inv (g2.named.distinct hR g2.inv) g2.pos _ j).mpr ⟨hb, by rw [dnOf_eq hn, h5, h2]⟩
    · refine g2.lookup_not hR fun hh => ?_
      obtain ⟨as, hp⟩ := has_iff.mp hh
      obtain ⟨e, he, h1, _⟩ := hgiven _ hp
      have := hno e he
      rw [(Dn.eq_iff _ _ _).mpr h1] at this
      cases this
    · obtain ⟨as, hp, h4⟩ := g2.sound j n hb hn
      obtain ⟨e, he, h1, h2⟩ := hgiven _ hp
      exact ⟨e, he, hst e he _ as n h1 h2 rfl h4⟩

/-! The usual hooks. -/

/-- Parents come before their children, and no name comes twice. -/
def Ordered (U : Unicode) (first : Entry) (es : List Entry) : Prop :=
  ∀ a e b, es = a ++ e :: b → (∃ r up, e.dn = r :: up ∧ ∃ p ∈ first :: a, Dn.eq U p.dn up = true) ∧
    ∀ p ∈ first :: a, Dn.eq U p.dn e.dn = false

theorem ends_aborting (e : Entry) (x : PyErr) : ends aborting e x = some x := by
  unfold ends aborting
  split <;> rfl

theorem names_mem {U : Unicode} {ps : List Entry} {d : Dn} : foldDn U d ∈ ps.map (fun e => foldDn U e.dn) ↔ ∃ p ∈ ps, Dn.eq U p.dn d = true := by
  simp only [List.mem_map, Dn.eq_iff]

/-- The entry goes under one of those before it, and is not one of them. -/
theorem problem_none_iff {U : Unicode} {ps : List Entry} {e : Entry} :
    problem U (ps.map fun e => foldDn U e.dn) e = none ↔
      (∃ r up, e.dn = r :: up ∧ ∃ p ∈ ps, Dn.eq U p.dn up = true) ∧ ∀ p ∈ ps, Dn.eq U p.dn e.dn = false := by
  have hno : (∀ p ∈ ps, Dn.eq U p.dn e.dn = false) ↔ foldDn U e.dn ∉ ps.map (fun e => foldDn U e.dn) := by
    rw [names_mem]
    constructor
    · rintro h ⟨p, hp, he⟩; rw [h p hp] at he; cases he
    · intro h p hp
      cases hh : Dn.eq U p.dn e.dn with
      | false => rfl
      | true => exact absurd ⟨p, hp, hh⟩ h
  rw [hno]
  cases hd : e.dn with
  | nil =>
    simp only [problem, hd]
    constructor
    · intro h; split at h <;> cases h
    · rintro ⟨⟨r, up, h, _⟩, _⟩; cases h
  | cons r up =>
    simp only [problem, hd, List.cons.injEq]
    have hex : (∃ r_1 up_1, (r = r_1 ∧ up = up_1) ∧ ∃ p ∈ ps, Dn.eq U p.dn up_1 = true) ↔ ∃ p ∈ ps, Dn.eq U p.dn up = true :=
      ⟨fun ⟨_, _, ⟨_, e⟩, h⟩ => e ▸ h, fun h => ⟨r, up, ⟨rfl, rfl⟩, h⟩⟩
    rw [hex, ← names_mem]
    by_cases h1 : foldDn U up ∈ ps.map (fun e => foldDn U e.dn)
    · rw [if_neg (by simpa using h1)]
      by_cases h2 : foldDn U (r :: up) ∈ ps.map (fun e => foldDn U e.dn)
      · rw [if_pos h2]; simp only [reduceCtorEq, false_iff]; exact fun h => h.2 h2
      · rw [if_neg h2]; exact ⟨fun _ => ⟨h1, h2⟩, fun _ => rfl⟩
    · rw [if_pos h1]; simp only [reduceCtorEq, false_iff]; exact fun h => h1 h.1

theorem taken_seen {U : Unicode} {hooks : Hooks} {seen seen' : List Name} (h : ∀ x, x ∈ seen ↔ x ∈ seen') (es : List Entry) :
    taken U hooks seen es = taken U hooks seen' es := by
  induction es generalizing seen seen' with
  | nil => rfl
  | cons e es ih =>
    have hp : problem U seen e = problem U seen' e := by unfold problem; simp only [h]
    rw [taken, taken, hp]
    rw [ih (seen := foldDn U e.dn :: seen) (seen' := foldDn U e.dn :: seen') (by intro x; simp only [List.mem_cons, h]), ih h]

/-- Entries without a problem are taken, and the next decides. -/
theorem taken_append {U : Unicode} {hooks : Hooks} (ps a es : List Entry)
    (h : ∀ x e y, a = x ++ e :: y → problem U ((ps ++ x).map fun e => foldDn U e.dn) e = none) :
    taken U hooks (ps.map fun e => foldDn U e.dn) (a ++ es) =
      (a ++ (taken U hooks ((ps ++ a).map fun e => foldDn U e.dn) es).1, (taken U hooks ((ps ++ a).map fun e => foldDn U e.dn) es).2) := by
  induction a generalizing ps with
  | nil => simp
  | cons e a ih =>
    have h0 := h [] e a rfl
    rw [List.append_nil] at h0
    have ih := ih (ps ++ [e]) fun x e' y hxy => by
      have := h (e :: x) e' y (by rw [hxy]; rfl)
      simpa using this
    rw [List.cons_append, taken, h0]
    simp only
    rw [taken_seen (seen' := (ps ++ [e]).map fun e => foldDn U e.dn) (by
      intro x; simp only [List.mem_cons, List.map_append, List.map_nil, List.map_cons, List.mem_append, List.not_mem_nil, or_false]
      exact or_comm), ih]
    simp [List.append_assoc]

theorem aborting_none_iff (U : Unicode) (first : Entry) (es : List Entry) :
    (taken U aborting [foldDn U first.dn] es).2 = none ↔ Ordered U first es := by
  constructor
  · intro h a e b hes
    refine problem_none_iff.mp ?_
    suffices ∀ (a ps : List Entry) (e : Entry) (b : List Entry), (taken U aborting (ps.map fun e => foldDn U e.dn) (a ++ e :: b)).2 = none →
        problem U ((ps ++ a).map fun e => foldDn U e.dn) e = none from this a [first] e b (by rw [← hes]; exact h)
    intro a
    induction a with
    | nil =>
      intro ps e b h
      rw [List.nil_append, taken] at h
      rw [List.append_nil]
      cases hp : problem U (ps.map fun e => foldDn U e.dn) e with
      | none => rfl
      | some x => rw [hp] at h; simp only [ends_aborting] at h; cases h
    | cons c a ih =>
      intro ps e b h
      rw [List.cons_append, taken] at h
      cases hp : problem U (ps.map fun e => foldDn U e.dn) c with
      | some x => rw [hp] at h; simp only [ends_aborting] at h; cases h
      | none =>
        rw [hp] at h
        simp only at h
        rw [taken_seen (seen' := (ps ++ [c]).map fun e => foldDn U e.dn) (by
          intro x; simp only [List.mem_cons, List.map_append, List.map_nil, List.map_cons, List.mem_append, List.not_mem_nil, or_false]
          exact or_comm)] at h
        simpa using ih (ps ++ [c]) e b h
  · intro h
    have := taken_append (U := U) (hooks := aborting) [first] es [] fun x e y hxy => problem_none_iff.mpr (h x e y hxy)
    rw [List.append_nil] at this
    rw [show [foldDn U first.dn] = [first].map fun e => foldDn U e.dn from rfl, this]
    rfl

theorem ordered_taken {U : Unicode} {first : Entry} {es : List Entry} {hooks : Hooks} (h : Ordered U first es) :
    taken U hooks [foldDn U first.dn] es = (es, none) := by
  have := taken_append (U := U) (hooks := hooks) [first] es [] fun x e y hxy => problem_none_iff.mpr (h x e y hxy)
  rw [List.append_nil] at this
  rw [show [foldDn U first.dn] = [first].map fun e => foldDn U e.dn from rfl, this]
  simp [taken]

theorem made_of_parse {U : Unicode} {chunks : List Bytes} {es : List Entry} {x : Option Ldif.Err}
    (h : Ldif.parse U false chunks = (es.map .entry, x)) : ∀ e ∈ es, Made U e := by
  obtain ⟨es', h1, h2⟩ := parse_made U chunks
  rw [h] at h1
  have inj : ∀ {l l' : List Entry}, l.map Ldif.Record.entry = l'.map .entry → l = l' := by
    intro l
    induction l with
    | nil => intro l' h; cases l' with | nil => rfl | cons => cases h
    | cons a l ih =>
      intro l' h
      cases l' with
      | nil => cases h
      | cons b l' =>
        simp only [List.map_cons, List.cons.injEq, Ldif.Record.entry.injEq] at h
        rw [h.1, ih h.2]
  rw [inj h1]
  exact h2

/-- A text that is read without an exception, parents before children and no name twice, becomes a tree of just its entries. -/
theorem loaded_partial (env : Env) (chunks : List Bytes) (first : Entry) (es : List Entry)
    (hp : Ldif.parse env.U false chunks = ((first :: es).map .entry, none)) (ha : Alike env.U es) (ho : Ordered env.U first es) :
    ∃ h, fromLDIFFile env chunks = .ok (.fired h) ∧ Contains env.U h (first :: es) := by
  obtain ⟨h, h1, h2⟩ := loads_partial env aborting first es (made_of_parse hp) ha
  rw [ordered_taken ho] at h1 h2
  exact ⟨h, by simp only [fromLDIFFile, receive, hp, h1, connectionLost, if_true], h2⟩

/-- Otherwise `completed` fails with what is wrong with the first entry that does not fit, and what comes after it does not
matter. -/
theorem refused_partial (env : Env) (chunks : List Bytes) (first : Entry) (a b : List Entry) (e : Entry)
    (hp : Ldif.parse env.U false chunks = ((first :: (a ++ e :: b)).map .entry, none)) (ha : Alike env.U (a ++ e :: b))
    (ho : Ordered env.U first a) :
    (∀ r up, e.dn = r :: up → (∀ p ∈ first :: a, Dn.eq env.U p.dn up = false) →
      fromLDIFFile env chunks = .ok (.failed .noSuchObject)) ∧
    (∀ r up, e.dn = r :: up → (∃ p ∈ first :: a, Dn.eq env.U p.dn up = true) → (∃ p ∈ first :: a, Dn.eq env.U p.dn e.dn = true) →
      fromLDIFFile env chunks = .ok (.failed .alreadyExists)) ∧
    (e.dn = [] → ∃ x, fromLDIFFile env chunks = .ok (.failed x)) := by
  obtain ⟨h, h1, _⟩ := loads_partial env aborting first (a ++ e :: b) (made_of_parse hp) ha
  have htake := taken_append (U := env.U) (hooks := aborting) [first] a (e :: b) fun x e y hxy => problem_none_iff.mpr (ho x e y hxy)
  rw [show [foldDn env.U first.dn] = [first].map fun e => foldDn env.U e.dn from rfl, htake] at h1
  have key : ∀ x, problem env.U (([first] ++ a).map fun e => foldDn env.U e.dn) e = some x →
      fromLDIFFile env chunks = .ok (.failed x) := by
    intro x hx
    rw [taken, hx] at h1
    simp only [ends_aborting] at h1
    simp only [fromLDIFFile, receive, hp, h1, connectionLost, if_true]
  refine ⟨fun r up hd hno => key _ ?_, fun r up hd h2 h3 => key _ ?_, fun hd => ?_⟩
  · simp only [problem, hd]
    rw [if_pos]
    rw [names_mem]
    rintro ⟨p, hp', he⟩
    rw [hno p hp'] at he; cases he
  · have h3 := names_mem.mpr h3
    rw [hd] at h3
    simp only [problem, hd]
    rw [if_neg (by rw [Classical.not_not]; exact names_mem.mpr h2)]
    exact if_pos h3
  · have : ∃ x, problem env.U (([first] ++ a).map fun e => foldDn env.U e.dn) e = some x := by
      simp only [problem, hd]
      split <;> exact ⟨_, rfl⟩
    obtain ⟨x, hx⟩ := this
    exact ⟨x, key x hx⟩

/-- So a tree comes out just when every entry fits. -/
theorem loaded_iff_partial (env : Env) (chunks : List Bytes) (first : Entry) (es : List Entry)
    (hp : Ldif.parse env.U false chunks = ((first :: es).map .entry, none)) (ha : Alike env.U es) :
    (∃ h, fromLDIFFile env chunks = .ok (.fired h)) ↔ Ordered env.U first es := by
  constructor
  · rintro ⟨h, hh⟩
    obtain ⟨h', h1, _⟩ := loads_partial env aborting first es (made_of_parse hp) ha
    rw [← aborting_none_iff]
    cases hx : (taken env.U aborting [foldDn env.U first.dn] es).2 with
    | none => rfl
    | some x =>
      rw [hx] at h1
      simp only [fromLDIFFile, receive, hp, h1, connectionLost, if_true] at hh
      cases hh
  · intro ho
    obtain ⟨h, h1, _⟩ := loaded_partial env chunks first es hp ha ho
    exact ⟨h, h1⟩

theorem skips {U : Unicode} {hooks : Hooks} (hs : ∀ x e, hooks.lookupFailed x e = none) : ∀ (es ps : List Entry),
    (es.map fun e => foldDn U e.dn).Nodup → (∀ e ∈ es, ∀ p ∈ ps, Dn.eq U p.dn e.dn = false) → (∀ e ∈ es, e.dn ≠ []) →
    (taken U hooks (ps.map fun e => foldDn U e.dn) es).2 = none ∧ ∀ a e b, es = a ++ e :: b →
      (e ∈ (taken U hooks (ps.map fun e => foldDn U e.dn) es).1 ↔
        ∃ p, (p ∈ ps ∨ p ∈ a ∧ p ∈ (taken U hooks (ps.map fun e => foldDn U e.dn) es).1) ∧ Dn.eq U p.dn (Dn.up e.dn) = true) := by
  intro es
  induction es with
  | nil => intro ps _ _ _; exact ⟨rfl, fun a e b h => by cases a <;> cases h⟩
  | cons c es ih =>
    intro ps hn hd hne
    simp only [List.map_cons, List.nodup_cons] at hn
    obtain ⟨r, up, hc⟩ := List.exists_cons_of_ne_nil (hne c List.mem_cons_self)
    have hup : Dn.up c.dn = up := by rw [hc]; rfl
    have hnot : ∀ e ∈ es, e ≠ c := by
      rintro e he rfl
      exact hn.1 (List.mem_map.mpr ⟨e, he, rfl⟩)
    rw [taken]
    cases hp : problem U (ps.map fun e => foldDn U e.dn) c with
    | none =>
      have hpar := (problem_none_iff.mp hp).1
      simp only
      have hseen : taken U hooks (foldDn U c.dn :: ps.map fun e => foldDn U e.dn) es =
          taken U hooks ((ps ++ [c]).map fun e => foldDn U e.dn) es := taken_seen (by
        intro x; simp only [List.mem_cons, List.map_append, List.map_nil, List.map_cons, List.mem_append, List.not_mem_nil, or_false]
        exact or_comm) es
      rw [hseen]
      obtain ⟨i1, i2⟩ := ih (ps ++ [c]) hn.2 (by
        intro e he p hpm
        rcases List.mem_append.mp hpm with hpm | hpm
        · exact hd e (List.mem_cons_of_mem _ he) p hpm
        · rw [List.mem_singleton.mp hpm]
          cases hq : Dn.eq U c.dn e.dn with
          | false => rfl
          | true => exact absurd (List.mem_map.mpr ⟨e, he, ((Dn.eq_iff _ _ _).mp hq).symm⟩) hn.1)
        fun e he => hne e (List.mem_cons_of_mem _ he)
      refine ⟨i1, fun a e b hab => ?_⟩
      cases a with
      | nil =>
        cases hab
        obtain ⟨r', up', h1, p, hpm, he⟩ := hpar
        rw [hc] at h1; cases h1
        exact ⟨fun _ => ⟨p, .inl hpm, by rw [hup]; exact he⟩, fun _ => List.mem_cons_self⟩
      | cons c' a =>
        simp only [List.cons_append, List.cons.injEq] at hab
        obtain ⟨rfl, hab⟩ := hab
        have hec : e ≠ c := hnot e (by rw [hab]; simp)
        have := i2 a e b hab
        constructor
        · intro hm
          rcases List.mem_cons.mp hm with h | hm
          · exact absurd h hec
          · obtain ⟨p, hpm, he⟩ := this.mp hm
            refine ⟨p, ?_, he⟩
            rcases hpm with hpm | ⟨h1, h2⟩
            · rcases List.mem_append.mp hpm with hpm | hpm
              · exact .inl hpm
              · rw [List.mem_singleton.mp hpm]; exact .inr ⟨List.mem_cons_self, List.mem_cons_self⟩
            · exact .inr ⟨List.mem_cons_of_mem _ h1, List.mem_cons_of_mem _ h2⟩
        · rintro ⟨p, hpm, he⟩
          refine List.mem_cons_of_mem _ (this.mpr ⟨p, ?_, he⟩)
          rcases hpm with hpm | ⟨h1, h2⟩
          · exact .inl (List.mem_append_left _ hpm)
          · rcases List.mem_cons.mp h2 with rfl | h2
            · exact .inl (by simp)
            · rcases List.mem_cons.mp h1 with rfl | h1
              · exact .inl (by simp)
              · exact .inr ⟨h1, h2⟩
    | some x =>
      have hno : foldDn U c.dn ∉ ps.map fun e => foldDn U e.dn := by
        rw [names_mem]
        rintro ⟨p, hpm, he⟩
        rw [hd c List.mem_cons_self p hpm] at he; cases he
      have hx : x = .noSuchObject ∧ foldDn U up ∉ ps.map fun e => foldDn U e.dn := by
        simp only [problem, hc] at hp
        split at hp
        · rename_i h; cases hp; exact ⟨rfl, h⟩
        · split at hp
          · rename_i h; rw [hc] at hno; exact absurd h hno
          · cases hp
      obtain ⟨rfl, hx⟩ := hx
      have hend : ends hooks c .noSuchObject = none := by simp [ends, hs]
      simp only [hend]
      obtain ⟨i1, i2⟩ := ih ps hn.2 (fun e he => hd e (List.mem_cons_of_mem _ he)) fun e he => hne e (List.mem_cons_of_mem _ he)
      have hcn : c ∉ (taken U hooks (ps.map fun e => foldDn U e.dn) es).1 := fun hm =>
        hnot c ((taken_sublist U hooks _ es).subset hm) rfl
      refine ⟨i1, fun a e b hab => ?_⟩
      cases a with
      | nil =>
        cases hab
        refine ⟨fun hm => absurd hm hcn, ?_⟩
        rintro ⟨p, hpm | ⟨h, _⟩, he⟩
        · rw [hup] at he; exact absurd (names_mem.mpr ⟨p, hpm, he⟩) hx
        · cases h
      | cons c' a =>
        simp only [List.cons_append, List.cons.injEq] at hab
        obtain ⟨rfl, hab⟩ := hab
        rw [i2 a e b hab]
        constructor
        · rintro ⟨p, hpm | ⟨h1, h2⟩, he⟩
          · exact ⟨p, .inl hpm, he⟩
          · exact ⟨p, .inr ⟨List.mem_cons_of_mem _ h1, h2⟩, he⟩
        · rintro ⟨p, hpm | ⟨h1, h2⟩, he⟩
          · exact ⟨p, .inl hpm, he⟩
          · rcases List.mem_cons.mp h1 with rfl | h1
            · exact absurd h2 hcn
            · exact ⟨p, .inr ⟨h1, h2⟩, he⟩

/-- If `lookupFailed` gives `None`, entries without a parent are passed over, with whatever is below them, and the others are
loaded. -/
theorem skipping_partial (env : Env) (hooks : Hooks) (hs : ∀ x e, hooks.lookupFailed x e = none) (chunks : List Bytes)
    (first : Entry) (es : List Entry) (hp : Ldif.parse env.U false chunks = ((first :: es).map .entry, none)) (ha : Alike env.U es)
    (hn : (es.map fun e => foldDn env.U e.dn).Nodup) (hf : ∀ e ∈ es, Dn.eq env.U first.dn e.dn = false ∧ e.dn ≠ []) :
    ∃ h ks, receive env hooks true chunks = .ok (.fired h) ∧ Contains env.U h (first :: ks) ∧ ks.Sublist es ∧
      ∀ a e b, es = a ++ e :: b → (e ∈ ks ↔ ∃ p ∈ first :: a, (p = first ∨ p ∈ ks) ∧ Dn.eq env.U p.dn (Dn.up e.dn) = true) := by
  obtain ⟨h, h1, h2⟩ := loads_partial env hooks first es (made_of_parse hp) ha
  obtain ⟨h3, h4⟩ := skips hs es [first] hn (fun e he p hp' => List.mem_singleton.mp hp' ▸ (hf e he).1) fun e he => (hf e he).2
  have hsub := taken_sublist env.U hooks [foldDn env.U first.dn] es
  simp only [List.map_cons, List.map_nil] at h3 h4
  rw [h3] at h1
  refine ⟨h, _, by simp only [receive, hp, h1, connectionLost, if_true], h2, hsub, fun a e b hab => (h4 a e b hab).trans ⟨?_, ?_⟩⟩
  · rintro ⟨p, hp' | ⟨hp', hk⟩, he⟩
    · rw [List.mem_singleton.mp hp'] at he; exact ⟨first, List.mem_cons_self, .inl rfl, he⟩
    · exact ⟨p, List.mem_cons_of_mem _ hp', .inr hk, he⟩
  · rintro ⟨p, hp', hor, he⟩
    rcases List.mem_cons.mp hp' with rfl | hpa
    · exact ⟨p, .inl List.mem_cons_self, he⟩
    · rcases hor with rfl | hk
      · exact ⟨p, .inl List.mem_cons_self, he⟩
      · exact ⟨p, .inr ⟨hpa, hk⟩, he⟩

/-! Round trip. -/

theorem zip_left {α β : Type} {l : List α} {l' : List β} (h : l'.length = l.length) {x : α} (hx : x ∈ l) : ∃ y ∈ l', (x, y) ∈ l.zip l' := by
  induction l generalizing l' with
  | nil => cases hx
  | cons a l ih =>
    cases l' with
    | nil => cases h
    | cons b l' =>
      rcases List.mem_cons.mp hx with rfl | hx
      · exact ⟨b, List.mem_cons_self, by simp⟩
      · obtain ⟨y, h1, h2⟩ := ih (by simpa using h) hx
        exact ⟨y, List.mem_cons_of_mem _ h1, by simp [h2]⟩

theorem zip_right {α β : Type} {l : List α} {l' : List β} (h : l'.length = l.length) {y : β} (hy : y ∈ l') : ∃ x ∈ l, (x, y) ∈ l.zip l' := by
  induction l generalizing l' with
  | nil => cases l' with | nil => cases hy | cons => cases h
  | cons a l ih =>
    cases l' with
    | nil => cases h
    | cons b l' =>
      rcases List.mem_cons.mp hy with rfl | hy
      · exact ⟨a, List.mem_cons_self, by simp⟩
      · obtain ⟨x, h1, h2⟩ := ih (by simpa using h) hy
        exact ⟨x, List.mem_cons_of_mem _ h1, by simp [h2]⟩

theorem zip_dns {es es' : List Entry} (hlen : es'.length = es.length) (hz : ∀ x ∈ es.zip es', Reads x.1 x.2) :
    es'.map (·.dn) = es.map (·.dn) := by
  induction es generalizing es' with
  | nil => cases es' with | nil => rfl | cons => cases hlen
  | cons e es ih =>
    cases es' with
    | nil => cases hlen
    | cons e' es' =>
      rw [List.map_cons, List.map_cons, ih (by simpa using hlen) fun x hx => hz x (List.mem_cons_of_mem _ hx)]
      rw [(hz (e, e') List.mem_cons_self).dn]

theorem alike_dns {U : Unicode} {es es' : List Entry} (h : es'.map (·.dn) = es.map (·.dn)) (ha : Alike U es) : Alike U es' := by
  have key : ∀ e ∈ es', ∃ x ∈ es, x.dn = e.dn := by
    intro e he
    have : e.dn ∈ es.map (·.dn) := by rw [← h]; exact List.mem_map.mpr ⟨e, he, rfl⟩
    exact List.mem_map.mp this
  intro e he e' he' r r' up up' hd hd'
  obtain ⟨x, hx, e1⟩ := key e he
  obtain ⟨x', hx', e2⟩ := key e' he'
  exact ha x hx x' hx' r r' up up' (e1.trans hd) (e2.trans hd')

theorem ordered_dns {U : Unicode} {first first' : Entry} {es es' : List Entry} (hf : first'.dn = first.dn)
    (h : es'.map (·.dn) = es.map (·.dn)) (ho : Ordered U first es) : Ordered U first' es' := by
  intro a' e' b' hes
  rw [hes, List.map_append, List.map_cons] at h
  obtain ⟨a, y, rfl, ha, hy⟩ := List.map_eq_append_iff.mp h.symm
  obtain ⟨e, b, rfl, he, hb⟩ := List.map_eq_cons_iff.mp hy
  have hmem : ∀ (P : Dn → Prop), (∃ p ∈ first :: a, P p.dn) ↔ ∃ p ∈ first' :: a', P p.dn := by
    intro P
    have : ∀ (l : List Entry), (∃ p ∈ l, P p.dn) ↔ ∃ d ∈ l.map (·.dn), P d := by
      intro l
      constructor
      · rintro ⟨p, hp, h⟩; exact ⟨_, List.mem_map.mpr ⟨p, hp, rfl⟩, h⟩
      · rintro ⟨d, hd, h⟩; obtain ⟨p, hp, rfl⟩ := List.mem_map.mp hd; exact ⟨p, hp, h⟩
    rw [this, this, List.map_cons, List.map_cons, ha, hf]
  obtain ⟨⟨r, up, h1, h2⟩, h3⟩ := ho a e b rfl
  refine ⟨⟨r, up, he.symm.trans h1, (hmem fun d => Dn.eq U d up = true).mp h2⟩, fun p hp => ?_⟩
  cases hq : Dn.eq U p.dn e'.dn with
  | false => rfl
  | true =>
    obtain ⟨p', hp', hq'⟩ := (hmem fun d => Dn.eq U d e'.dn = true).mpr ⟨p, hp, hq⟩
    rw [← he, h3 p' hp'] at hq'
    cases hq'

/-- What was written is loaded: the tree holds entries of the same names and values. -/
theorem roundtrip_partial (env : Env) (hU : Sane env.U) (first : Entry) (es : List Entry) (hw : ∀ e ∈ first :: es, Writable e)
    (ha : Alike env.U es) (ho : Ordered env.U first es) :
    ∃ objects, C29.written env (first :: es) = .ok objects ∧ (ShortLines (Ldif.manyAsLDIF objects) → ∀ chunks : List Bytes,
      chunks.flatten = Ldif.manyAsLDIF objects → ∃ h, fromLDIFFile env chunks = .ok (.fired h) ∧
        (∀ e ∈ first :: es, ∃ j n, lookup env.U h 0 e.dn = .ok j ∧ h[j]? = some n ∧ Dn.eq env.U n.entry.dn e.dn = true ∧
          SameValues e n.entry) ∧
        ∀ d, (∀ e ∈ first :: es, Dn.eq env.U e.dn d = false) → lookup env.U h 0 d = .error .noSuchObject) := by
  obtain ⟨objects, h1, h2⟩ := C29.file_roundtrip env hU (first :: es) hw
  refine ⟨objects, h1, fun hs chunks hc => ?_⟩
  obtain ⟨es', hp, hlen, hz⟩ := h2 hs chunks hc
  cases es' with
  | nil => cases hlen
  | cons first' es' =>
    simp only [List.length_cons, Nat.add_right_cancel_iff] at hlen
    rw [List.zip_cons_cons] at hz
    have hdn := zip_dns hlen fun x hx => hz x (List.mem_cons_of_mem _ hx)
    have hf := hz (first, first') List.mem_cons_self
    obtain ⟨h, g1, g2, g3, _⟩ := loaded_partial env chunks first' es' hp (alike_dns hdn ha) (ordered_dns hf.dn hdn ho)
    refine ⟨h, g1, fun e he => ?_, fun d hd => g3 d fun e he => ?_⟩
    · obtain ⟨e', he', hr⟩ := zip_left (l := first :: es) (l' := first' :: es') (by simp [hlen]) he
      have hr := hz (e, e') hr
      obtain ⟨j, n, i1, i2, i3⟩ := g2 e' he'
      rw [hr.dn] at i1
      refine ⟨j, n, i1, i2, by rw [← hr.dn]; exact i3.name, fun a b => ?_⟩
      rw [hr.values a b, show HasValue e' a b ↔ _ from Ldif.hasValue_iff (dn := e'.dn) (d := e'.attrs),
        show HasValue n.entry a b ↔ _ from Ldif.hasValue_iff (dn := n.entry.dn) (d := n.entry.attrs)]
      simp only [i3.values]
    · obtain ⟨e', he', hr⟩ := zip_right (l := first :: es) (l' := first' :: es') (by simp [hlen]) he
      rw [(hz (e', e) hr).dn]
      exact hd e' he'

/-! Where the claim fails. -/

/-- The connection is lost for any other reason than that it was closed: `completed` does not fire, ever. -/
theorem lost_silently (env : Env) (hooks : Hooks) (chunks : List Bytes) (c : Completed) (h : receive env hooks false chunks = .ok c) :
    c = .pending := by
  unfold receive at h
  split at h
  · cases h
  · split at h
    · cases h
    · cases h
      unfold connectionLost
      repeat' split
      all_goals first | rfl | contradiction

/-- A text without entries: `completed` does not fire either. -/
theorem nothing_silently (env : Env) (chunks : List Bytes) (h : Ldif.parse env.U false chunks = ([], none)) :
    fromLDIFFile env chunks = .ok .pending := by
  simp only [fromLDIFFile, receive, h, gotAll, connectionLost]

/-- The environment of the examples. -/
def plain : Env := ⟨asciiTables, fun b => b, true, true⟩

/-- No entries: a header only. -/
theorem header_silently : fromLDIFFile plain [ascii "version: 1\n\n"] = .ok .pending :=
  nothing_silently plain _ (by decide +kernel)

/-- An empty file raises instead. -/
theorem empty_raises (env : Env) : fromLDIFFile env [] = .error .truncated := rfl

/-- One name in two spellings: both entries are put into the tree, and the second is never found. -/
theorem twin_loaded : ∃ h n, fromLDIFFile plain [ascii "dn: o=x\no: x\n\ndn: cn=a,o=x\nsn: b\n\ndn: cn=A,o=x\nsn: c\n\n"] = .ok (.fired h) ∧
    lookup asciiTables h 0 [[⟨['c', 'n'], ['A']⟩], [⟨['o'], ['x']⟩]] = .ok 1 ∧ h[2]? = some n ∧ Below h 0 2 ∧
    Under n.entry.attrs (.bytes (ascii "sn")) (.bytes (ascii "c")) := by
  refine ⟨[⟨⟨[[⟨['o'], ['x']⟩]], [(.bytes (ascii "o"), [.bytes (ascii "x")])]⟩, none,
      [(['c', 'n', '=', 'a'], 1), (['c', 'n', '=', 'A'], 2)]⟩,
    ⟨⟨[[⟨['c', 'n'], ['a']⟩], [⟨['o'], ['x']⟩]], [(.bytes (ascii "sn"), [.bytes (ascii "b")])]⟩, some 0, []⟩,
    ⟨⟨[[⟨['c', 'n'], ['A']⟩], [⟨['o'], ['x']⟩]], [(.bytes (ascii "sn"), [.bytes (ascii "c")])]⟩, some 0, []⟩], _,
    by decide +kernel, by decide +kernel, rfl, ⟨_, .down (k := ['c', 'n', '=', 'A']) (childAs_of (by decide +kernel)) (.here 2)⟩,
    (.bytes (ascii "sn"), [.bytes (ascii "c")]), by simp, rfl, by simp⟩

theorem alike_of {U : Unicode} {es : List Entry} (h : ∀ e ∈ es, ∀ e' ∈ es, ∀ r ∈ e.dn.head?, ∀ r' ∈ e'.dn.head?, Rdn.eq U r r' = true → r = r') :
    Alike U es := fun e he e' he' r r' _ _ hd hd' => h e he e' he' r (by rw [hd]; rfl) r' (by rw [hd']; rfl)

/-- A file in which every entry fits. -/
def family : Bytes :=
  ascii "version: 1\n\ndn: o=x\no: x\n\ndn: ou=p,o=x\nou: p\nobjectClass: a\nobjectClass: b\n\ndn: cn=q,OU=P,o=x\ncn: q\n\n"

/-- Its entries. -/
def members : List Entry :=
  [⟨[[⟨['o'], ['x']⟩]], [(.bytes (ascii "o"), [.bytes (ascii "x")])]⟩,
   ⟨[[⟨['o', 'u'], ['p']⟩], [⟨['o'], ['x']⟩]], [(.bytes (ascii "ou"), [.bytes (ascii "p")]),
     (.bytes (ascii "objectClass"), [.bytes (ascii "a"), .bytes (ascii "b")])]⟩,
   ⟨[[⟨['c', 'n'], ['q']⟩], [⟨['O', 'U'], ['P']⟩], [⟨['o'], ['x']⟩]], [(.bytes (ascii "cn"), [.bytes (ascii "q")])]⟩]

example : ∃ h, fromLDIFFile plain [family.take 30, family.drop 30] = .ok (.fired h) ∧ Contains asciiTables h members :=
  loaded_partial plain _ _ members.tail (by decide +kernel) (alike_of (by decide +kernel)) ((aborting_none_iff _ _ _).mp (by decide +kernel))

/-- Without the second entry the third has no parent; if that is passed over, the rest is loaded. -/
example : fromLDIFFile plain [ascii "dn: o=x\no: x\n\ndn: cn=q,ou=p,o=x\ncn: q\n\ndn: ou=r,o=x\nou: r\n\n"] =
    .ok (.failed .noSuchObject) := by decide +kernel

example : ∃ h ks, receive plain ⟨fun _ _ => none, fun x _ => some x⟩ true
      [ascii "dn: o=x\no: x\n\ndn: cn=q,ou=p,o=x\ncn: q\n\ndn: ou=r,o=x\nou: r\n\n"] = .ok (.fired h) ∧
    Contains asciiTables h (⟨[[⟨['o'], ['x']⟩]], [(.bytes (ascii "o"), [.bytes (ascii "x")])]⟩ :: ks) := by
  obtain ⟨h, ks, h1, h2, _⟩ := skipping_partial plain ⟨fun _ _ => none, fun x _ => some x⟩ (fun _ _ => rfl)
    [ascii "dn: o=x\no: x\n\ndn: cn=q,ou=p,o=x\ncn: q\n\ndn: ou=r,o=x\nou: r\n\n"]
    ⟨[[⟨['o'], ['x']⟩]], [(.bytes (ascii "o"), [.bytes (ascii "x")])]⟩
    [⟨[[⟨['c', 'n'], ['q']⟩], [⟨['o', 'u'], ['p']⟩], [⟨['o'], ['x']⟩]], [(.bytes (ascii "cn"), [.bytes (ascii "q")])]⟩,
      ⟨[[⟨['o', 'u'], ['r']⟩], [⟨['o'], ['x']⟩]], [(.bytes (ascii "ou"), [.bytes (ascii "r")])]⟩]
    (by decide +kernel) (alike_of (by decide +kernel)) (by decide +kernel) (by decide +kernel)
  exact ⟨h, ks, h1, h2⟩

/-- Twice the same name. -/
example : fromLDIFFile plain [ascii "dn: o=x\no: x\n\ndn: ou=p,o=x\nou: p\n\ndn: ou=p,o=x\nou: p\n\n"] =
    .ok (.failed .alreadyExists) := by decide +kernel

/-- Entries that can be written and loaded. -/
example : (∀ e ∈ members, Writable e) ∧ ∃ first, members = first :: members.tail ∧ Alike asciiTables members.tail ∧
    Ordered asciiTables first members.tail := by
  refine ⟨?_, _, rfl, alike_of (by decide +kernel), (aborting_none_iff _ _ _).mp (by decide +kernel)⟩
  have h1 : ∀ e ∈ members, ∀ p ∈ e.attrs, (∀ b ∈ p.1.toBytes, b.toNat < 128) ∧ 58 ∉ p.1.toBytes ∧ 10 ∉ p.1.toBytes ∧
      p.1.toBytes.head? ≠ some 32 ∧ p.1.toBytes.head? ≠ some 35 ∧ p.1.isText = false ∧ ∀ v ∈ p.2, v.isText = false := by decide +kernel
  have h2 : ∀ e ∈ members, e.attrs.Pairwise fun p q => PyStr.lowerBytes p.1.toBytes ≠ PyStr.lowerBytes q.1.toBytes := by decide +kernel
  have h3 : ∀ e ∈ members, (∀ r ∈ e.dn, ∀ a ∈ r, '=' ∉ a.attributeType) ∧ ∀ r ∈ e.dn, r ≠ [] := by decide +kernel
  intro e he
  refine ⟨⟨fun k vs hm => ?_, h2 e he⟩, fun k vs hm => ?_, fun k vs hm => .inr (h1 e he _ hm).2.2.2.2.2.2, (h3 e he).1, (h3 e he).2⟩
  · obtain ⟨a, _, _, _, _, b, _⟩ := h1 e he _ hm
    cases k with
    | text s => cases b
    | bytes b => exact a
  · obtain ⟨_, a, b, c, d, _⟩ := h1 e he _ hm
    exact ⟨a, b, c, d⟩

end Verif.C84
