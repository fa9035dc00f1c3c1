import Verif.Lemmas.Tree
/-
C23  The in-memory tree stays consistent.

The histories contain any calls on any references, also on references to entries that were deleted before.
-/
namespace Verif.C23
open Verif.Dn Verif.Tree Verif.Spec

/-- Whatever calls are made on a directory that starts as one entry, its links agree. -/
theorem history_consistent (U : Unicode) (e : Entry) (cs : List Call) : Consistent (callRun U (single e) cs) 0 :=
  let ⟨hv, hr⟩ := single_inv e
  let ⟨h1, h2⟩ := callRun_inv (U := U) hv hr cs
  h1.consistent h2

/-- Along a way down, the DN grows by one RDN per step: the DN of an entry ends in the DN of every entry above it. -/
theorem dn_of_path (U : Unicode) (e : Entry) (cs : List Call) (l : List Nat) (j : Nat)
    (hp : Path (callRun U (single e) cs) 0 l j) :
    ∃ rdns, rdns.length = l.length ∧ dnOf (callRun U (single e) cs) j = rdns ++ e.dn := by
  have hdn : ∀ (c : Call) (h : Heap) (i : Nat) (n : Node), h[i]? = some n → dnOf (callStep U h c) i = dnOf h i := by
    intro c h i n hn
    have del : ∀ {p rdn r}, Tree.deleteChild h p rdn = .ok r → dnOf r.1 i = dnOf h i := by
      intro p rdn r hd
      obtain ⟨q, hq, _, e⟩ := deleteChild_ok hd
      obtain ⟨m', hm', _, e'⟩ := prune_old (k := rdn.text) hq hn
      simp [dnOf, e, hm', e', hn]
    cases c with
    | add p rdn as =>
      simp only [callStep]
      split
      · rename_i r hr'
        obtain ⟨q, hq, hk, _, e⟩ := addChild_ok hr'
        obtain ⟨m', hm', _, e'⟩ := grow_old (k := rdn.text) (new := ⟨⟨rdn :: q.entry.dn, buildAttrs U as⟩, some p, []⟩) hq hn
        simp [dnOf, e, hm', e', hn]
      · rfl
    | delete i =>
      simp only [callStep]
      split
      · rename_i r hr'
        obtain ⟨_, p, rdn, _, _, _, _, _, hd⟩ := delete_ok hr'
        exact del hd
      · rfl
    | deleteChild p rdn =>
      simp only [callStep]
      split
      · rename_i r hr'; exact del hr'
      · rfl
  have root : ∀ (cs : List Call) (h : Heap), Inv h → Rooted h 0 → dnOf (callRun U h cs) 0 = dnOf h 0 := by
    intro cs
    induction cs with
    | nil => intro h _ _; rfl
    | cons c cs ih =>
      intro h hv hr
      obtain ⟨h1, h2⟩ := callStep_inv (U := U) hv hr c
      obtain ⟨n, hn, _⟩ := hr
      show dnOf (callRun U (callStep U h c) cs) 0 = _
      rw [ih _ h1 h2, hdn c h 0 n hn]
  have hroot : dnOf (callRun U (single e) cs) 0 = e.dn := root cs _ (single_inv e).1 (single_inv e).2
  have hc := (history_consistent U e cs).links
  rw [← hroot]
  generalize callRun U (single e) cs = h at hp hc
  clear hroot root hdn
  generalize 0 = i at hp
  induction hp with
  | here i => exact ⟨[], rfl, rfl⟩
  | @down i c j k l hch _ ih =>
    obtain ⟨n, hn, hm⟩ := hch
    obtain ⟨m, r, hm', _, hd, _⟩ := hc i n k c hn hm
    obtain ⟨rdns, hlen, hdn⟩ := ih
    refine ⟨rdns ++ [r], by simp [hlen], ?_⟩
    have e1 : dnOf h c = r :: n.entry.dn := by simp [dnOf, hm', hd]
    have e2 : dnOf h i = n.entry.dn := by simp [dnOf, hn]
    rw [hdn, e1, e2]
    simp

/-- A history with refused calls and with a call on a deleted entry; the directory has four entries in the end. -/
example : ∃ (cs : List Call) (l : List Nat), cs.length = 8 ∧ Path (callRun asciiTables (single ⟨[[⟨['o'], ['x']⟩]], []⟩) cs) 0 l 5 ∧
    l.length = 2 ∧ (callRun asciiTables (single ⟨[[⟨['o'], ['x']⟩]], []⟩) cs).length = 6 := by
  refine ⟨[.add 0 [⟨['c'], ['a']⟩] [], .add 0 [⟨['c'], ['b']⟩] [], .add 0 [⟨['c'], ['a']⟩] [], .add 1 [⟨['u'], ['1']⟩] [],
    .delete 1, .deleteChild 1 [⟨['u'], ['1']⟩], .add 3 [⟨['u'], ['2']⟩] [], .add 2 [⟨['u'], ['3']⟩] []], [2, 5], rfl, ?_, rfl, by decide +kernel⟩
  exact .down (k := ['c', '=', 'b']) (childAs_of (by decide +kernel))
    (.down (k := ['u', '=', '3']) (childAs_of (by decide +kernel)) (.here 5))

end Verif.C23
