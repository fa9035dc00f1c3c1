import Verif.Lemmas.Lookup
import Verif.Props.C17
/-
C26  Search returns exactly the matching entries in scope, each once.

Proved for filters that can be evaluated on the entries in scope.  If evaluation raises for one entry below the base, a
subtree search ends normally but leaves out entries that match (`error_hides_entries`).
-/
namespace Verif.C26
open Verif.Dn Verif.Tree Verif.Spec

variable {U : Unicode} {h : Heap}

/-- Two ways from one entry agree in their first step. -/
theorem same_child (hv : Inv h) {i c c' j : Nat} {k k' : Str} (hc : ChildAs h i k c) (hc' : ChildAs h i k' c') (hb : Below h c j)
    (hb' : Below h c' j) : c = c' := by
  obtain ⟨l, hl⟩ := hb
  obtain ⟨l', hl'⟩ := hb'
  have := hv.once _ j _ _ (Nat.le_refl _) (.down hc hl) (.down hc' hl')
  exact (List.cons.inj this).1

/-- The walk over a tree on which the callback never raises. -/
theorem walk_spec (hv : Inv h) (accept : Nat → Option Bool) : ∀ (fuel i : Nat), i < h.length → h.length < fuel + i →
    (∀ j, Below h i j → ∃ b, accept j = some b) →
    ∃ r, walk h accept fuel i = (r, false) ∧ (∀ j, j ∈ r ↔ Below h i j ∧ accept j = some true) ∧
      r.Pairwise fun a b => ¬ Below h b a := by
  intro fuel
  induction fuel with
  | zero => intro i h1 h2; omega
  | succ fuel ih =>
    intro i hi hf hacc
    obtain ⟨n, hn⟩ : ∃ n, h[i]? = some n := ⟨h[i], List.getElem?_eq_getElem hi⟩
    have hlist : ∀ cs : List Nat, cs.Nodup → (∀ c ∈ cs, ∃ k, ChildAs h i k c) →
        (∀ j, j ∈ walkLoop (walk h accept fuel) cs ↔ ∃ c ∈ cs, Below h c j ∧ accept j = some true) ∧
          (walkLoop (walk h accept fuel) cs).Pairwise fun a b => ¬ Below h b a := by
      intro cs
      induction cs with
      | nil => intro _ _; simp [walkLoop]
      | cons c cs ihc =>
        intro hnd hch
        rw [List.nodup_cons] at hnd
        obtain ⟨k, hk⟩ := hch c (by simp)
        obtain ⟨r, hr, h1, h2⟩ := ih c (hk.lt_length hv) (by have := hv.lt hk; omega)
          (fun j ⟨l, hl⟩ => hacc j ⟨_, .down hk hl⟩)
        obtain ⟨h3, h4⟩ := ihc hnd.2 (fun c' hc' => hch c' (by simp [hc']))
        simp only [walkLoop, hr]
        refine ⟨fun j => ?_, ?_⟩
        · simp only [List.mem_append, h1, h3, List.mem_cons, exists_eq_or_imp]
        · rw [List.pairwise_append]
          refine ⟨h2, h4, ?_⟩
          intro a ha b hb hba
          obtain ⟨c', hc', hb', _⟩ := (h3 b).mp hb
          obtain ⟨k', hk'⟩ := hch c' (by simp [hc'])
          obtain ⟨l1, hl1⟩ := hb'
          obtain ⟨l2, hl2⟩ := hba
          have := same_child hv hk hk' ((h1 a).mp ha).1 ⟨_, path_append hl1 hl2⟩
          exact hnd.1 (this ▸ hc')
    obtain ⟨h1, h2⟩ := hlist (n.children.map (·.2)).reverse ((List.reverse_perm _).nodup_iff.mpr (hv.nodes hn)) (by
      intro c hc
      obtain ⟨p, hp, rfl⟩ := List.mem_map.mp (List.mem_reverse.mp hc)
      exact ⟨p.1, n, hn, hp⟩)
    obtain ⟨b, hb⟩ := hacc i (.refl i)
    have hsplit : ∀ j, Below h i j ↔ j = i ∨ ∃ c ∈ (n.children.map (·.2)).reverse, Below h c j := by
      intro j
      constructor
      · rintro ⟨l, hl⟩
        cases hl with
        | here => exact .inl rfl
        | down hc hl =>
          obtain ⟨n', hn', hm⟩ := hc
          rw [hn] at hn'; cases hn'
          exact .inr ⟨_, List.mem_reverse.mpr (List.mem_map.mpr ⟨_, hm, rfl⟩), _, hl⟩
      · rintro (rfl | ⟨c, hc, l, hl⟩)
        · exact .refl j
        · obtain ⟨p, hp, rfl⟩ := List.mem_map.mp (List.mem_reverse.mp hc)
          exact ⟨_, .down ⟨n, hn, hp⟩ hl⟩
    refine ⟨(if b then [i] else []) ++ walkLoop (walk h accept fuel) (n.children.map (·.2)).reverse,
      by simp only [walk, hb, hn, Option.map_some, Option.getD_some], fun j => ?_, ?_⟩
    · rw [List.mem_append, h1, hsplit j]
      have hself : j ∈ (if b = true then [i] else []) ↔ j = i ∧ accept j = some true := by
        cases b
        · simp only [Bool.false_eq_true, if_false, List.not_mem_nil, false_iff, not_and]
          rintro rfl; simp [hb]
        · simp only [if_true, List.mem_singleton]
          exact ⟨fun e => ⟨e, e ▸ hb⟩, fun e => e.1⟩
      rw [hself]
      constructor
      · rintro (⟨e, ha⟩ | ⟨c, hc, hb', ha⟩)
        · exact ⟨.inl e, ha⟩
        · exact ⟨.inr ⟨c, hc, hb'⟩, ha⟩
      · rintro ⟨e | ⟨c, hc, hb'⟩, ha⟩
        · exact .inl ⟨e, ha⟩
        · exact .inr ⟨c, hc, hb', ha⟩
    · rw [List.pairwise_append]
      refine ⟨by cases b <;> simp, h2, ?_⟩
      intro a ha b' hb' hba
      have hai : a = i := by
        cases b
        · simp at ha
        · simpa using ha
      subst hai
      obtain ⟨c, hc, ⟨l, hl⟩, _⟩ := (h1 b').mp hb'
      obtain ⟨p, hp, rfl⟩ := List.mem_map.mp (List.mem_reverse.mp hc)
      have := hv.lt ⟨n, hn, hp⟩
      have := hv.path_le hl
      obtain ⟨l', hl'⟩ := hba
      have := hv.path_le hl'
      omega

/-- The entries in the scope of a search. -/
def InScope (h : Heap) (i : Nat) : Scope → Nat → Prop
  | .base, j => j = i
  | .one, j => ∃ k, ChildAs h i k j
  | .sub, j => Below h i j

/-- The filter matches the entry of a node. -/
def Matches (U : Unicode) (h : Heap) (f : Match.Filter) (j : Nat) : Prop :=
  ∃ n, h[j]? = some n ∧ Match.eval U n.entry f = .ok true

/-- The filter can be evaluated on the entries in scope. -/
def Evaluable (U : Unicode) (h : Heap) (f : Match.Filter) (i : Nat) (s : Scope) : Prop :=
  ∀ j, InScope h i s j → ∀ n, h[j]? = some n → ∃ b, Match.eval U n.entry f = .ok b

theorem tryMatch_true {f : Match.Filter} {j : Nat} : tryMatch U h f j = some true ↔ Matches U h f j := by
  unfold tryMatch Matches
  cases hn : h[j]? with
  | none => simp
  | some n =>
    simp only [Option.some.injEq, exists_eq_left']
    cases Match.eval U n.entry f with
    | ok b => simp
    | error x => simp

theorem tryMatch_some {f : Match.Filter} {i j : Nat} {s : Scope} (he : Evaluable U h f i s) (hj : InScope h i s j)
    (hl : j < h.length) : ∃ b, tryMatch U h f j = some b := by
  obtain ⟨b, hb⟩ := he j hj h[j] (List.getElem?_eq_getElem hl)
  exact ⟨b, by simp [tryMatch, List.getElem?_eq_getElem hl, hb]⟩

theorem eachChild_spec (accept : Nat → Option Bool) : ∀ cs : List Nat, cs.Nodup → (∀ c ∈ cs, ∃ b, accept c = some b) →
    ∃ r, eachChild accept cs = some r ∧ (∀ j, j ∈ r ↔ j ∈ cs ∧ accept j = some true) ∧ r.Nodup := by
  intro cs
  induction cs with
  | nil => intro _ _; exact ⟨[], rfl, by simp, by simp⟩
  | cons c cs ih =>
    intro hnd hacc
    rw [List.nodup_cons] at hnd
    obtain ⟨b, hb⟩ := hacc c (by simp)
    obtain ⟨r, hr, h1, h2⟩ := ih hnd.2 (fun c' hc' => hacc c' (by simp [hc']))
    refine ⟨if b then c :: r else r, by simp only [eachChild, hb, hr], fun j => ?_, ?_⟩
    · cases b
      · simp only [Bool.false_eq_true, if_false, h1, List.mem_cons]
        constructor
        · rintro ⟨h3, h4⟩; exact ⟨.inr h3, h4⟩
        · rintro ⟨rfl | h3, h4⟩
          · rw [hb] at h4; cases h4
          · exact ⟨h3, h4⟩
      · simp only [if_true, List.mem_cons, h1]
        constructor
        · rintro (rfl | ⟨h3, h4⟩)
          · exact ⟨.inl rfl, hb⟩
          · exact ⟨.inr h3, h4⟩
        · rintro ⟨rfl | h3, h4⟩
          · exact .inl rfl
          · exact .inr ⟨h3, h4⟩
    · cases b
      · simpa using h2
      · simp only [if_true, List.nodup_cons]
        exact ⟨fun hm => hnd.1 ((h1 c).mp hm).1, h2⟩

/-- A search on a tree that came about by any history reports exactly the entries in scope that the filter matches, each
once; in a subtree search no entry comes after one below it. -/
theorem search_exact_partial (U : Unicode) (e : Entry) (cs : List Call) (i : Nat)
    (hi : i < (callRun U (single e) cs).length) (s : Scope) (f : Match.Filter)
    (he : Evaluable U (callRun U (single e) cs) f i s) :
    ∃ r, search U (callRun U (single e) cs) i s f = some r ∧
      (∀ j, j ∈ r ↔ InScope (callRun U (single e) cs) i s j ∧ Matches U (callRun U (single e) cs) f j) ∧ r.Nodup ∧
      r.Pairwise fun a b => ¬ Below (callRun U (single e) cs) b a := by
  have hv : Inv (callRun U (single e) cs) := (callRun_inv (single_inv e).1 (single_inv e).2 cs).1
  generalize callRun U (single e) cs = h at hi he hv
  cases s with
  | base =>
    obtain ⟨b, hb⟩ := tryMatch_some he (j := i) rfl hi
    refine ⟨if b then [i] else [], by simp only [search, hb], fun j => ?_, ?_, ?_⟩
    · rw [← tryMatch_true]
      simp only [InScope]
      cases b
      · simp only [Bool.false_eq_true, if_false, List.not_mem_nil, false_iff, not_and]
        rintro rfl; simp [hb]
      · simp only [if_true, List.mem_singleton]
        exact ⟨fun e => ⟨e, e ▸ hb⟩, fun e => e.1⟩
    · cases b <;> simp
    · cases b <;> simp
  | one =>
    obtain ⟨n, hn⟩ : ∃ n, h[i]? = some n := ⟨h[i], List.getElem?_eq_getElem hi⟩
    have hmem : ∀ c, c ∈ n.children.map (·.2) ↔ ∃ k, ChildAs h i k c := by
      intro c
      constructor
      · intro hc
        obtain ⟨p, hp, rfl⟩ := List.mem_map.mp hc
        exact ⟨p.1, n, hn, hp⟩
      · rintro ⟨k, n', hn', hm⟩
        rw [hn] at hn'; cases hn'
        exact List.mem_map.mpr ⟨_, hm, rfl⟩
    obtain ⟨r, hr, h1, h2⟩ := eachChild_spec (tryMatch U h f) (n.children.map (·.2)) (hv.nodes hn) (by
      intro c hc
      obtain ⟨k, hk⟩ := (hmem c).mp hc
      exact tryMatch_some he ⟨k, hk⟩ (hk.lt_length hv))
    refine ⟨r, by simpa only [search, hn, Option.map_some, Option.getD_some] using hr, fun j => ?_, h2, ?_⟩
    · rw [h1, hmem, tryMatch_true]; rfl
    · refine List.Pairwise.imp_of_mem ?_ h2
      rintro a b ha hb hne ⟨l, hl⟩
      obtain ⟨k, hk⟩ := (hmem a).mp ((h1 a).mp ha).1
      obtain ⟨k', hk'⟩ := (hmem b).mp ((h1 b).mp hb).1
      exact hne (same_child hv hk hk' (.refl a) ⟨l, hl⟩)
  | sub =>
    obtain ⟨r, hr, h1, h2⟩ := walk_spec hv (tryMatch U h f) (h.length + 1) i hi (by omega)
      (fun j hj => tryMatch_some he hj (hj.lt_length hv hi))
    refine ⟨r, by simp only [search, hr], fun j => ?_, ?_, h2⟩
    · rw [h1, tryMatch_true]; rfl
    · refine List.Pairwise.imp ?_ h2
      rintro a b hab rfl
      exact hab (.refl _)

/-- With C17: for entries with proper attribute names and filters of the kinds considered there, the entries reported
are those of which the filter holds. -/
theorem search_holds_partial (U : Unicode) (hU : Sane U) (e : Entry) (cs : List Call) (i : Nat)
    (hi : i < (callRun U (single e) cs).length) (s : Scope) (f : Match.Filter)
    (hw : ∀ j n, InScope (callRun U (single e) cs) i s j → (callRun U (single e) cs)[j]? = some n →
      WellNamed n.entry ∧ Testable n.entry f) :
    ∃ r, search U (callRun U (single e) cs) i s f = some r ∧ r.Nodup ∧
      ∀ j, j ∈ r ↔ InScope (callRun U (single e) cs) i s j ∧ ∃ n, (callRun U (single e) cs)[j]? = some n ∧ Holds U n.entry f true := by
  obtain ⟨r, hr, h1, h2, _⟩ := search_exact_partial U e cs i hi s f (by
    intro j hj n hn
    obtain ⟨w, t⟩ := hw j n hj hn
    obtain ⟨b, hb, _⟩ := C17.eval_correct_partial U hU n.entry w f t
    exact ⟨b, hb⟩)
  refine ⟨r, hr, h2, fun j => ?_⟩
  rw [h1]
  refine and_congr_right fun hj => exists_congr fun n => and_congr_right fun hn => ?_
  obtain ⟨w, t⟩ := hw j n hj hn
  exact C17.eval_iff_partial U hU n.entry w f t true

/-- Listing a whole subtree gives every entry once, parents first. -/
theorem subtree_order (U : Unicode) (e : Entry) (cs : List Call) (i : Nat) (hi : i < (callRun U (single e) cs).length) :
    ∃ r, walk (callRun U (single e) cs) (fun _ => some true) ((callRun U (single e) cs).length + 1) i = (r, false) ∧
      (∀ j, j ∈ r ↔ Below (callRun U (single e) cs) i j) ∧ r.Nodup ∧
      r.Pairwise fun a b => ¬ Below (callRun U (single e) cs) b a := by
  have hv : Inv (callRun U (single e) cs) := (callRun_inv (single_inv e).1 (single_inv e).2 cs).1
  obtain ⟨r, hr, h1, h2⟩ := walk_spec hv (fun _ => some true) ((callRun U (single e) cs).length + 1) i hi (by omega) (fun _ _ => ⟨true, rfl⟩)
  refine ⟨r, hr, fun j => by simp [h1], ?_, h2⟩
  refine List.Pairwise.imp ?_ h2
  rintro a b hab rfl
  exact hab (.refl _)

/-- Three entries, the last of which has an octet string where the others have text. -/
def history : List Call :=
  [.add 0 [⟨['c'], ['a']⟩] [(.text ['s'], [.text ['b']])], .add 0 [⟨['c'], ['b']⟩] [(.text ['s'], [.bytes [98]])]]

/-- An entry for which evaluation raises hides its older siblings from a subtree search, which reports no error. -/
theorem error_hides_entries : ∃ (f : Match.Filter) (j : Nat),
    Below (callRun asciiTables (single ⟨[[⟨['o'], ['x']⟩]], []⟩) history) 0 j ∧
    Matches asciiTables (callRun asciiTables (single ⟨[[⟨['o'], ['x']⟩]], []⟩) history) f j ∧
    search asciiTables (callRun asciiTables (single ⟨[[⟨['o'], ['x']⟩]], []⟩) history) 0 .sub f = some [] := by
  refine ⟨.greaterOrEqual (.text ['s']) (.text ['a']), 1,
    ⟨_, .down (k := ['c', '=', 'a']) (childAs_of (by decide +kernel)) (.here 1)⟩, ?_, by decide +kernel⟩
  exact ⟨⟨⟨[[⟨['c'], ['a']⟩], [⟨['o'], ['x']⟩]], [(.text ['s'], [.text ['b']])]⟩, some 0, []⟩, by decide +kernel, by decide +kernel⟩

/-- A search with two results out of three entries. -/
example : Evaluable asciiTables (callRun asciiTables (single ⟨[[⟨['o'], ['x']⟩]], []⟩) history) (.present (.bytes [115])) 0 .sub ∧
    search asciiTables (callRun asciiTables (single ⟨[[⟨['o'], ['x']⟩]], []⟩) history) 0 .sub (.present (.bytes [115])) =
      some [2, 1] := by
  refine ⟨?_, by decide +kernel⟩
  intro j _ n hn
  have hrun : callRun asciiTables (single ⟨[[⟨['o'], ['x']⟩]], []⟩) history =
    [⟨⟨[[⟨['o'], ['x']⟩]], []⟩, none, [(['c', '=', 'a'], 1), (['c', '=', 'b'], 2)]⟩,
      ⟨⟨[[⟨['c'], ['a']⟩], [⟨['o'], ['x']⟩]], [(.text ['s'], [.text ['b']])]⟩, some 0, []⟩,
      ⟨⟨[[⟨['c'], ['b']⟩], [⟨['o'], ['x']⟩]], [(.text ['s'], [.bytes [98]])]⟩, some 0, []⟩] := by decide +kernel
  rw [hrun] at hn
  match j, hn with
  | 0, hn => cases hn; exact ⟨false, by decide +kernel⟩
  | 1, hn => cases hn; exact ⟨true, by decide +kernel⟩
  | 2, hn => cases hn; exact ⟨true, by decide +kernel⟩

end Verif.C26
