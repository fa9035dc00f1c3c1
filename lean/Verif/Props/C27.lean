import Verif.Lemmas.DiffReplay
/-
C27  A tree difference replays to the other tree.

The full claim fails: `respelled_child_fails`, `alike_siblings_raise`, `emptied_attribute_stays`.  What holds is proved for
trees that spell attribute names and RDNs in one way and whose values can be decoded and sorted: every operation succeeds,
and afterwards the tree has entries under exactly the names of the other tree, with exactly the values of the other tree.
-/
namespace Verif.C27
open Verif.Dn Verif.Spec Verif.Tree
open Verif.Spec.Modify (Vocabulary)
open Verif.C20 (HasValue Comparable)

/-- A tree whose RDNs are among `R`, whose attribute names are among `K`, and whose entries follow the vocabulary. -/
structure Uniform (R : Rdn → Prop) (K : PyStr → Prop) (V : Vocabulary) (h : Heap) : Prop where
  inv : Inv h
  rooted : Rooted h 0
  rdns : Named R h
  tidy : ∀ j n, Below h 0 j → h[j]? = some n → V.Tidy n.entry.attrs
  names : ∀ j n, Below h 0 j → h[j]? = some n → ∀ p ∈ n.entry.attrs, K p.1

variable {env : Server.Env} {o : Orders} {R : Rdn → Prop} {K : PyStr → Prop} {V : Vocabulary} {ha hb : Heap}

theorem comparable (hd : ∀ n v, V.value n v → v.Decodable) (hK : ∀ k k', K k → K k' → SameName k k' → k = k') {a b : Entry}
    (ta : V.Tidy a.attrs) (tb : V.Tidy b.attrs) (ka : ∀ p ∈ a.attrs, K p.1) (kb : ∀ p ∈ b.attrs, K p.1) : Comparable a b := by
  have nodup : ∀ {d : Verif.Attrs}, V.Tidy d → (d.map (·.1)).Nodup := by
    intro d hd
    rw [List.Nodup, List.pairwise_map]
    exact hd.apart.imp fun h e => h (by rw [e])
  refine ⟨fun p hp => ?_, fun p hp q hq => ?_, nodup ta, nodup tb, ta.nodup, fun p hp v hv => hd _ _ (ta.values p hp v hv)⟩
  · rcases List.mem_append.mp hp with hp | hp
    · exact (ta.names p hp).ascii
    · exact (tb.names p hp).ascii
  · apply hK
    · exact (List.mem_append.mp hp).elim (ka p) (kb p)
    · exact (List.mem_append.mp hq).elim (ka q) (kb q)

theorem listed (hU : Sane env.U) (hP : V.Plain) {e : Entry} (t : V.Tidy e.attrs) :
    ∃ l, Server.items env e = .ok l ∧ ∀ dn k v, HasValue ⟨dn, buildAttrs env.U l⟩ k v ↔ HasValue e k v := by
  obtain ⟨l, h1, h2, h3, h4⟩ := Syntax.items_tidy (env := env) hU e.dn hP t
  refine ⟨l, h1, fun dn k v => ?_⟩
  have key : ∀ (dn : Dn) (d : Verif.Attrs), HasValue ⟨dn, d⟩ k v ↔ Modify.Has d (PyStr.lowerBytes k.toBytes) v := by
    intro dn d
    constructor
    · rintro ⟨vs, ⟨k', hm, hn⟩, hv⟩; exact ⟨(k', vs), hm, hn, hv⟩
    · rintro ⟨⟨k', vs⟩, hm, hn, hv⟩; exact ⟨vs, ⟨k', hm, hn⟩, hv⟩
  rw [key, key e.dn e.attrs, Syntax.buildAttrs_named hU h2, (Syntax.copy_tidy h2 h3).2, h4]

/-- Two trees with the same names and values. -/
def Equal (U : Unicode) (h hb : Heap) : Prop :=
  (∀ q j, lookup U hb 0 q = .ok j → ∃ i n m, lookup U h 0 q = .ok i ∧ h[i]? = some n ∧ hb[j]? = some m ∧
    ∀ k v, HasValue n.entry k v ↔ HasValue m.entry k v) ∧
  ∀ q x, lookup U hb 0 q = .error x → lookup U h 0 q = .error .noSuchObject

/-- The difference is computed, and operations that do the same as those of the difference can be replayed, with value sets walked
in another order. -/
theorem replays_like {o' : Orders} (hU : Sane env.U) (hor : ∀ l, (o.rdns l).Perm l) (hov : ∀ l, (o'.values l).Perm l) (hR : Spelled env.U R)
    (hK : ∀ k k', K k → K k' → SameName k k' → k = k') (hd : ∀ n v, V.value n v → v.Decodable)
    (hua : Uniform R K V ha) (hub : Uniform R K V hb) (hroot : foldDn env.U (dnOf ha 0) = foldDn env.U (dnOf hb 0)) :
    ∃ ops, diffTree env.U o ha hb = .ok ops ∧ (∀ op ∈ ops, Known env.U ha hb op) ∧ ∀ ops', Each (Like env) ops ops' →
      ∃ h', replay env o' ha ops' = (h', none) ∧ Inv h' ∧ Rooted h' 0 ∧ Equal env.U h' hb := by
  have hga : Good env.U R (foldDn env.U (dnOf hb 0)) ha := ⟨hua.inv, hua.rooted, hua.rdns, hroot⟩
  have hgb : Good env.U R (foldDn env.U (dnOf hb 0)) hb := ⟨hub.inv, hub.rooted, hub.rdns, rfl⟩
  obtain ⟨na, hna, _⟩ := hua.rooted
  obtain ⟨nb, hnb, _⟩ := hub.rooted
  have hx : foldDn env.U na.entry.dn = foldDn env.U nb.entry.dn := by rw [← dnOf_eq hna, ← dnOf_eq hnb, hroot]
  obtain ⟨ops, h1, hk, h2⟩ := loop_replay hU hR hor hov hga hgb
    (fun i j na nb hi hna hj hnb => comparable hd hK (hua.tidy i na hi hna) (hub.tidy j nb hj hnb) (hua.names i na hi hna) (hub.names j nb hj hnb))
    (ha.length + 1) 0 0 na nb (.refl 0) hna (.refl 0) hnb hx (by omega)
  refine ⟨ops, h1, hk, fun ops' hops => ?_⟩
  obtain ⟨h', h3, hg', h4, h5⟩ := h2 ops' hops ha hga fun _ _ _ => Iff.rfl
  have all : ∀ y, MatchAt env.U h' hb y := by
    intro y
    by_cases hy : foldDn env.U na.entry.dn <:+ y
    · exact h5 y hy
    · rw [← dnOf_eq hna, hroot] at hy
      exact ⟨fun e hv => absurd (hg'.view_root hv) hy, fun e hv => absurd (hgb.view_root hv) hy⟩
  refine ⟨h', h3, hg'.inv, hg'.rooted, fun q j hl => ?_, fun q x hl => ?_⟩
  · have hb' := ((lookup_iff hub.inv (hgb.named.distinct hR hgb.inv) hgb.pos q j).mp hl).1
    obtain ⟨m, hm, _⟩ := hgb.below_view (U := env.U) hb'
    obtain ⟨e, hv, hs⟩ := (all _).2 _ (hgb.view_lookup hR hl hm)
    obtain ⟨i, n, hi, hn, _, rfl⟩ := hg'.lookup_view hR hv
    exact ⟨i, n, m, hi, hn, hm, hs⟩
  · refine hg'.lookup_none hR fun e hv => ?_
    obtain ⟨e', hv', _⟩ := (all _).1 e hv
    obtain ⟨j, _, hj, _⟩ := hgb.lookup_view hR hv'
    rw [hl] at hj
    cases hj

/-- The difference is computed, whatever order the children are sorted in; every operation succeeds, whatever order value
sets are walked in; and then the tree has the names and values of the other. -/
theorem replays_partial (hU : Sane env.U) (hor : ∀ l, (o.rdns l).Perm l) (hov : ∀ l, (o.values l).Perm l) (hR : Spelled env.U R)
    (hK : ∀ k k', K k → K k' → SameName k k' → k = k') (hP : V.Plain) (hd : ∀ n v, V.value n v → v.Decodable)
    (hua : Uniform R K V ha) (hub : Uniform R K V hb) (hroot : foldDn env.U (dnOf ha 0) = foldDn env.U (dnOf hb 0)) :
    ∃ ops h', diffTree env.U o ha hb = .ok ops ∧ replay env o ha ops = (h', none) ∧ Inv h' ∧ Rooted h' 0 ∧
      (∀ q j, lookup env.U hb 0 q = .ok j → ∃ i n m, lookup env.U h' 0 q = .ok i ∧ h'[i]? = some n ∧ hb[j]? = some m ∧
        ∀ k v, HasValue n.entry k v ↔ HasValue m.entry k v) ∧
      ∀ q x, lookup env.U hb 0 q = .error x → lookup env.U h' 0 q = .error .noSuchObject := by
  obtain ⟨ops, h1, hk, h2⟩ := replays_like (o := o) (o' := o) hU hor hov hR hK hd hua hub hroot
  obtain ⟨h', h3, h4, h5, h6⟩ := h2 ops (each_self fun op hop => by
    cases hk op hop with
    | modify i j n m ms => exact .modify _ _ _ (.refl _)
    | add j m hj _ hm =>
      obtain ⟨l, i1, i2⟩ := listed (env := env) hU hP (hub.tidy j m hj hm)
      exact .add _ _ l rfl i1 i2
    | delete i n => exact .delete _)
  exact ⟨ops, h', h1, h3, h4, h5, h6⟩

/-! Where it fails. -/

/-- Nothing is reordered. -/
def plainly : Orders := ⟨id, id⟩

def rdn (k v : Str) : Rdn := [⟨k, v⟩]

def root : Entry := ⟨[rdn ['o'] ['x']], []⟩

/-- `o=x` and below it `cn=a`. -/
def lower : Heap := callRun asciiTables (single root) [.add 0 (rdn ['c', 'n'] ['a']) []]

/-- `o=x`, below it `CN=a`, and below that `cn=b`. -/
def upper : Heap :=
  callRun asciiTables (single root) [.add 0 (rdn ['C', 'N'] ['a']) [], .add 1 (rdn ['c', 'n'] ['b']) []]

/-- A server that hashes nothing. -/
def quiet : Server.Env := ⟨asciiTables, id, true, true⟩

/-- A child whose RDN is spelled differently in the other tree is added again.  What is below it is then added below the
old child, which can no longer be deleted. -/
theorem respelled_child_fails : ∃ ops,
    diffTree asciiTables plainly lower upper = .ok ops ∧ (replay quiet plainly lower ops).2 = some .notAllowedOnNonLeaf := by
  refine ⟨[.add ⟨[rdn ['C', 'N'] ['a'], rdn ['o'] ['x']], []⟩,
    .add ⟨[rdn ['c', 'n'] ['b'], rdn ['C', 'N'] ['a'], rdn ['o'] ['x']], []⟩,
    .delete [rdn ['c', 'n'] ['a'], rdn ['o'] ['x']]], ?_, ?_⟩ <;> decide +kernel

/-- `o=x` and below it both `cn=a` and `CN=a`, which a tree may have. -/
def twins : Heap := callRun asciiTables (single root) [.add 0 (rdn ['c', 'n'] ['a']) [], .add 0 (rdn ['C', 'N'] ['a']) []]

/-- With siblings that differ in case only, not even the difference to the same tree is computed. -/
theorem alike_siblings_raise : diffTree asciiTables plainly twins twins = .error .assertionError := by decide +kernel

/-- `o=x` with a description, and without. -/
def described : Heap := single ⟨[rdn ['o'] ['x']], [(.bytes [100], [.bytes [97]])]⟩

/-- An attribute that the other tree lacks is emptied but stays. -/
theorem emptied_attribute_stays : ∃ ops h' e,
    diffTree asciiTables plainly described (single root) = .ok ops ∧ replay quiet plainly described ops = (h', none) ∧
    (h'[0]?).map (·.entry) = some e ∧ Delta.entryEq asciiTables e root = .ok false := by
  refine ⟨[.modify [rdn ['o'] ['x']] [⟨.delete, .bytes [100], [.bytes [97]]⟩]],
    single ⟨[rdn ['o'] ['x']], [(.bytes [100], [])]⟩, ⟨[rdn ['o'] ['x']], [(.bytes [100], [])]⟩, ?_, ?_, ?_, ?_⟩ <;> decide +kernel

/-! An example: one entry changed, one added with a child, one deleted. -/

/-- The RDNs of the example. -/
def rdns (r : Rdn) : Prop := r ∈ [rdn ['c', 'n'] ['a'], rdn ['c', 'n'] ['b'], rdn ['c', 'n'] ['c'], rdn ['c', 'n'] ['d']]

/-- `cn=a`, and `cn=b` with `cn=c` below it. -/
def old : Heap := callRun asciiTables (single root)
  [.add 0 (rdn ['c', 'n'] ['a']) [(.bytes [100], [.bytes [97], .bytes [98]])], .add 0 (rdn ['c', 'n'] ['b']) [],
   .add 2 (rdn ['c', 'n'] ['c']) []]

/-- `cn=a` with other values, and `cn=d` with `cn=c` below it. -/
def new : Heap := callRun asciiTables (single root)
  [.add 0 (rdn ['c', 'n'] ['d']) [], .add 1 (rdn ['c', 'n'] ['c']) [(.bytes [100], [.bytes [97]])],
   .add 0 (rdn ['c', 'n'] ['a']) [(.bytes [100], [.bytes [98], .bytes [99]])]]

theorem rdns_spelled : Spelled asciiTables rdns := by
  constructor
  · intro r hr
    simp only [rdns, List.mem_cons, List.not_mem_nil, or_false] at hr
    rcases hr with rfl | rfl | rfl | rfl <;> simp [rdn, Ava.Plain]
  · intro r r' hr hr'
    simp only [rdns, List.mem_cons, List.not_mem_nil, or_false] at hr hr'
    rcases hr with rfl | rfl | rfl | rfl <;> rcases hr' with rfl | rfl | rfl | rfl <;> decide +kernel

/-- The entries of a tree, node by node. -/
theorem uniform_of (cs : List Call)
    (h : ∀ n ∈ callRun asciiTables (single root) cs, (n.parent ≠ none →
        ∀ r ∈ n.entry.dn.take 1, r ∈ [rdn ['c', 'n'] ['a'], rdn ['c', 'n'] ['b'], rdn ['c', 'n'] ['c'], rdn ['c', 'n'] ['d']]) ∧
      n.entry.attrs.length ≤ 1 ∧ ∀ p ∈ n.entry.attrs, p.1 = .bytes [100] ∧ p.2.Nodup ∧
        ∀ v ∈ p.2, v ∈ [PyStr.bytes [97], .bytes [98], .bytes [99]]) :
    Uniform rdns (· = .bytes [100]) Modify.allOctets (callRun asciiTables (single root) cs) := by
  obtain ⟨h1, h2⟩ := callRun_inv (U := asciiTables) (single_inv root).1 (single_inv root).2 cs
  refine ⟨h1, h2, ?_, ?_, ?_⟩
  · rintro i k c r d ⟨n, hn, hm⟩ hd
    obtain ⟨_, m, _, hm', hp, _⟩ := h1.links i n k c hn hm
    rw [dnOf_eq hm'] at hd
    exact (h m (List.mem_of_getElem? hm')).1 (by rw [hp]; simp) r (by rw [hd]; simp)
  · intro j n _ hn
    obtain ⟨_, hl, ha⟩ := h n (List.mem_of_getElem? hn)
    refine ⟨⟨fun p hp => ?_, ?_⟩, fun p hp v hv => ?_, fun p hp => (ha p hp).2.1⟩
    · rw [(ha p hp).1]; exact ⟨by decide +kernel, rfl⟩
    · match hattrs : n.entry.attrs, hl with
      | [], _ => exact .nil
      | [p], _ => exact List.pairwise_singleton _ _
    · have := (ha p hp).2.2 v hv
      simp only [List.mem_cons, List.not_mem_nil, or_false] at this
      rcases this with rfl | rfl | rfl
      all_goals exact ⟨rfl, PyStr.ascii_decodable (by decide +kernel)⟩
  · intro j n _ hn p hp
    exact ((h n (List.mem_of_getElem? hn)).2.2 p hp).1

example : Spelled asciiTables rdns ∧ Modify.allOctets.Plain ∧ (∀ n v, Modify.allOctets.value n v → v.Decodable) ∧
    Uniform rdns (· = .bytes [100]) Modify.allOctets old ∧ Uniform rdns (· = .bytes [100]) Modify.allOctets new ∧
    diffTree asciiTables plainly old new = .ok [
      .modify [rdn ['c', 'n'] ['a'], rdn ['o'] ['x']] [⟨.add, .bytes [100], [.bytes [99]]⟩, ⟨.delete, .bytes [100], [.bytes [97]]⟩],
      .add ⟨[rdn ['c', 'n'] ['d'], rdn ['o'] ['x']], []⟩,
      .add ⟨[rdn ['c', 'n'] ['c'], rdn ['c', 'n'] ['d'], rdn ['o'] ['x']], [(.bytes [100], [.bytes [97]])]⟩,
      .delete [rdn ['c', 'n'] ['c'], rdn ['c', 'n'] ['b'], rdn ['o'] ['x']],
      .delete [rdn ['c', 'n'] ['b'], rdn ['o'] ['x']]] := by
  refine ⟨rdns_spelled, ?_, ?_, uniform_of _ (by decide +kernel), uniform_of _ (by decide +kernel), by decide +kernel⟩
  · rintro n v w ⟨h1, _⟩ ⟨h2, _⟩; rw [h1, h2]
  · rintro n v ⟨_, h⟩; exact h

end Verif.C27
