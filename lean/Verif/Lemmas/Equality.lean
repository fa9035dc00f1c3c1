import Verif.Model.Equality
import Verif.Props.C06
import Verif.Spec.Each
/-
Helper lemmas for C102.
-/
namespace Verif.Equality
open Verif.Ldap Verif.Spec Verif.Ber

/-! ### The order of byte strings -/

theorem lt_cons {a b : UInt8} {as bs : Bytes} : lt (a :: as) (b :: bs) = true ↔ a.toNat < b.toNat ∨ a = b ∧ lt as bs = true := by
  simp [lt, UInt8.lt_iff_toNat_lt]

theorem lt_cons_false {a b : UInt8} {as bs : Bytes} :
    lt (a :: as) (b :: bs) = false ↔ b.toNat ≤ a.toNat ∧ (a = b → lt as bs = false) := by
  rw [← Bool.not_eq_true, lt_cons]
  constructor
  · intro h
    refine ⟨?_, fun e => ?_⟩
    · exact Nat.le_of_not_lt fun h' => h (.inl h')
    · cases hl : lt as bs with
      | false => rfl
      | true => exact absurd (.inr ⟨e, hl⟩) h
  · rintro ⟨h1, h2⟩ (h | ⟨h, h'⟩)
    · omega
    · rw [h2 h] at h'; cases h'

theorem lt_asymm : ∀ {a b : Bytes}, lt a b = true → lt b a = false
  | [], [], h => by cases h
  | [], _ :: _, _ => rfl
  | _ :: _, [], h => by cases h
  | a :: as, b :: bs, h => by
    rw [lt_cons_false]
    rcases lt_cons.mp h with h | ⟨e, h'⟩
    · exact ⟨by omega, fun e => by subst e; omega⟩
    · subst e; exact ⟨Nat.le_refl _, fun _ => lt_asymm h'⟩

theorem le_trans : ∀ {a b c : Bytes}, lt b a = false → lt c b = false → lt c a = false
  | [], _, [], _, _ => rfl
  | [], _, _ :: _, _, _ => rfl
  | _ :: _, [], _, h, _ => by cases h
  | _ :: _, _ :: _, [], _, h => by cases h
  | a :: as, b :: bs, c :: cs, h, h' => by
    rw [lt_cons_false] at h h' ⊢
    refine ⟨by omega, fun e => ?_⟩
    subst e
    have : b = c := UInt8.toNat_inj.mp (by omega)
    subst this
    exact le_trans (h.2 rfl) (h'.2 rfl)

theorem le_antisymm : ∀ {a b : Bytes}, lt b a = false → lt a b = false → a = b
  | [], [], _, _ => rfl
  | [], _ :: _, _, h => by cases h
  | _ :: _, [], h, _ => by cases h
  | a :: as, b :: bs, h, h' => by
    rw [lt_cons_false] at h h'
    have : a = b := UInt8.toNat_inj.mp (by omega)
    subst this
    rw [le_antisymm (h.2 rfl) (h'.2 rfl)]

/-! ### Sorting -/

theorem insert_perm (x : Bytes × Obj) (l : List (Bytes × Obj)) : (insert x l).Perm (x :: l) := by
  induction l with
  | nil => exact List.Perm.refl _
  | cons y ys ih =>
    simp only [insert]
    split
    · exact (List.Perm.cons _ ih).trans (List.Perm.swap _ _ _)
    · exact List.Perm.refl _

theorem sort_perm (l : List (Bytes × Obj)) : (sort l).Perm l := by
  induction l with
  | nil => exact List.Perm.refl _
  | cons x xs ih => exact (insert_perm x _).trans (List.Perm.cons _ ih)

/-- In order. -/
def Ascending (l : List (Bytes × Obj)) : Prop := l.Pairwise fun a b => lt b.1 a.1 = false

theorem insert_ascending (x : Bytes × Obj) {l : List (Bytes × Obj)} (h : Ascending l) : Ascending (insert x l) := by
  induction l with
  | nil => exact List.pairwise_singleton _ _
  | cons y ys ih =>
    obtain ⟨h1, h2⟩ := List.pairwise_cons.mp h
    simp only [insert]
    split
    · rename_i hlt
      refine List.pairwise_cons.mpr ⟨fun z hz => ?_, ih h2⟩
      rcases List.mem_cons.mp ((insert_perm x ys).subset hz) with rfl | hz
      · exact lt_asymm hlt
      · exact h1 z hz
    · rename_i hlt
      have hlt : lt y.1 x.1 = false := by simpa using hlt
      refine List.pairwise_cons.mpr ⟨fun z hz => ?_, h⟩
      rcases List.mem_cons.mp hz with rfl | hz
      · exact hlt
      · exact le_trans hlt (h1 z hz)

theorem sort_ascending (l : List (Bytes × Obj)) : Ascending (sort l) := by
  induction l with
  | nil => exact List.Pairwise.nil
  | cons x xs ih => exact insert_ascending x ih

theorem keyed_snd : ∀ {l : List Obj} {k : List (Bytes × Obj)}, keyed l = .ok k → k.map Prod.snd = l ∧ ∀ p ∈ k, toWire p.2 = .ok p.1
  | [], k, h => by cases h; simp
  | x :: xs, k, h => by
    obtain ⟨w, h1, h⟩ := bind_ok h
    obtain ⟨r, h2, h⟩ := bind_ok h
    cases h
    obtain ⟨h3, h4⟩ := keyed_snd h2
    refine ⟨by simp [h3], fun p hp => ?_⟩
    rcases List.mem_cons.mp hp with rfl | hp
    · exact h1
    · exact h4 p hp

theorem keyed_ok : ∀ {l : List Obj}, (∀ x ∈ l, ∃ w, toWire x = .ok w) → ∃ k, keyed l = .ok k
  | [], _ => ⟨[], rfl⟩
  | x :: xs, h => by
    obtain ⟨w, hw⟩ := h x List.mem_cons_self
    obtain ⟨k, hk⟩ := keyed_ok (l := xs) fun y hy => h y (List.mem_cons_of_mem _ hy)
    exact ⟨(w, x) :: k, by simp only [keyed, hw, hk, bind, Except.bind, pure, Except.pure]⟩

/-- One object is not written after the other. -/
def NotAfter (a b : Obj) : Prop := ∀ v w, toWire a = .ok v → toWire b = .ok w → lt w v = false

theorem sorted_ok {l r : List Obj} (h : sorted l = .ok r) : r.Perm l ∧ r.Pairwise NotAfter := by
  obtain ⟨k, h1, h2⟩ := bind_ok h
  cases h2
  obtain ⟨h3, h4⟩ := keyed_snd h1
  refine ⟨?_, ?_⟩
  · rw [← h3]; exact (sort_perm k).map _
  · rw [List.pairwise_map]
    refine (sort_ascending k).imp_of_mem fun {a b} ha hb hab v w hv hw => ?_
    rw [h4 a ((sort_perm k).subset ha)] at hv
    rw [h4 b ((sort_perm k).subset hb)] at hw
    cases hv; cases hw
    exact hab

theorem sorted_total {l : List Obj} (h : ∀ x ∈ l, ∃ w, toWire x = .ok w) : ∃ r, sorted l = .ok r := by
  obtain ⟨k, hk⟩ := keyed_ok h
  exact ⟨(sort k).map Prod.snd, by simp only [sorted, hk, bind, Except.bind, pure, Except.pure]⟩

/-! ### The bound on the recursion -/

theorem depth_pos (x : Obj) : 0 < depth x := by
  cases x <;> simp [depth]

theorem depth_mem {x : Obj} : ∀ {l : List Obj}, x ∈ l → depth x ≤ depths l
  | y :: ys, h => by
    simp only [depths]
    rcases List.mem_cons.mp h with rfl | h
    · omega
    · have := depth_mem h; omega

theorem filterSet_depth {x : Obj} {data : List Obj} (h : filterSet x = some data) : depth x = depths data + 1 := by
  unfold filterSet at h
  split at h <;> cases h <;> simp [depth]

theorem iter_depth {x y : Obj} {items : List Obj} (h : iter x = .ok items) (hy : y ∈ items) : depth y < depth x := by
  unfold iter at h
  split at h
  · cases h
    simp only [depth]
    have := depth_mem hy; omega
  all_goals first | (cases h; done) | (cases h; cases hy)

theorem listEq_congr {e₁ e₂ : Obj → Obj → Py Bool} : ∀ {l r : List Obj}, (∀ a ∈ l, ∀ b ∈ r, e₁ a b = e₂ a b) →
    listEq e₁ l r = listEq e₂ l r
  | [], [], _ => rfl
  | [], _ :: _, _ => rfl
  | _ :: _, [], _ => rfl
  | x :: xs, y :: ys, h => by
    simp only [listEq, h x List.mem_cons_self y List.mem_cons_self,
      listEq_congr (l := xs) (r := ys) fun a ha b hb => h a (List.mem_cons_of_mem _ ha) b (List.mem_cons_of_mem _ hb)]

theorem setEq_congr {e₁ e₂ : Obj → Obj → Py Bool} {self rhs : Obj} {data : List Obj}
    (h : ∀ items, iter rhs = .ok items → ∀ a ∈ data, ∀ b ∈ items, e₁ a b = e₂ a b) :
    setEq e₁ self data rhs = setEq e₂ self data rhs := by
  unfold setEq
  cases toWire self with
  | error e => rfl
  | ok a =>
    cases toWire rhs with
    | error e => rfl
    | ok b =>
      simp only [bind, Except.bind]
      split
      · rfl
      cases hl : sorted data with
      | error e => rfl
      | ok l =>
        cases hi : iter rhs with
        | error e => rfl
        | ok items =>
          simp only
          cases hr : sorted items with
          | error e => rfl
          | ok r =>
            simp only [lists]
            split
            · exact listEq_congr fun a ha b hb =>
                h items hi a ((sorted_ok hl).1.subset ha) b ((sorted_ok hr).1.subset hb)
            · rfl

theorem eqN_enough : ∀ (n m : Nat) (x y : Obj), depth x + depth y ≤ n → depth x + depth y ≤ m → eqN n x y = eqN m x y
  | 0, _, x, y, h, _ => by have := depth_pos x; omega
  | _ + 1, 0, x, y, _, h => by have := depth_pos x; omega
  | n + 1, m + 1, x, y, hn, hm => by
    simp only [eqN]
    cases hx : filterSet x with
    | some data =>
      simp only
      refine setEq_congr fun items hi a ha b hb => ?_
      have h1 := depth_mem ha
      have h2 := iter_depth hi hb
      have h3 := filterSet_depth hx
      exact eqN_enough n m a b (by omega) (by omega)
    | none =>
      simp only
      cases hy : filterSet y with
      | none => rfl
      | some data =>
        simp only
        split
        · refine setEq_congr fun items hi a ha b hb => ?_
          have h1 := depth_mem ha
          have h2 := iter_depth hi hb
          have h3 := filterSet_depth hy
          exact eqN_enough n m a b (by omega) (by omega)
        · rfl

/-- `==` without the bound. -/
theorem eq_step (x y : Obj) : eq x y =
    match filterSet x with
    | some data => setEq eq x data y
    | none =>
      match filterSet y with
      | some data => if isBase x then setEq eq y data x else wireEq x y
      | none => wireEq x y := by
  have hpos := depth_pos x
  obtain ⟨n, hn⟩ : ∃ n, depth x + depth y = n + 1 := ⟨depth x + depth y - 1, by omega⟩
  unfold eq
  rw [hn]
  simp only [eqN]
  cases hx : filterSet x with
  | some data =>
    simp only
    refine setEq_congr fun items hi a ha b hb => ?_
    have h1 := depth_mem ha
    have h2 := iter_depth hi hb
    have h3 := filterSet_depth hx
    exact eqN_enough _ _ a b (by omega) (by omega)
  | none =>
    simp only
    cases hy : filterSet y with
    | none => rfl
    | some data =>
      simp only
      split
      · refine setEq_congr fun items hi a ha b hb => ?_
        have h1 := depth_mem ha
        have h2 := iter_depth hi hb
        have h3 := filterSet_depth hy
        exact eqN_enough _ _ a b (by omega) (by omega)
      · rfl

/-! ### Lengths of encodings -/

theorem tlv_length {t t' : UInt8} {c c' w w' : Bytes} (h : tlv t c = .ok w) (h' : tlv t' c' = .ok w')
    (hc : c.length = c'.length) : w.length = w'.length := by
  obtain ⟨l, h1, rfl⟩ := tlv_ok h
  obtain ⟨l', h2, rfl⟩ := tlv_ok h'
  rw [hc, h2] at h1
  cases h1
  simp [hc]

theorem int2berlen_pos {n : Nat} {l : Bytes} (h : int2berlen n = .ok l) : l ≠ [] := by
  rcases int2berlen_ok h with ⟨_, rfl⟩ | ⟨_, b, bs, _, rfl, _⟩ <;> simp

theorem tlv_long {t : UInt8} {c w : Bytes} (h : tlv t c = .ok w) : c.length + 2 ≤ w.length := by
  obtain ⟨l, h1, rfl⟩ := tlv_ok h
  have := int2berlen_pos h1
  cases l with
  | nil => exact absurd rfl this
  | cons b bs => simp only [List.length_cons, List.length_append]; omega

theorem toWire_long {o : Obj} {w : Bytes} (h : toWire o = .ok w) : 2 ≤ w.length := by
  obtain ⟨t, c, hc⟩ := toWire_tlv h
  have := tlv_long hc
  omega

theorem toWireList_mem : ∀ {l : List Obj} {w : Bytes}, toWireList l = .ok w → ∀ x ∈ l, ∃ v, toWire x = .ok v
  | x :: xs, w, h, y, hy => by
    obtain ⟨a, b, h1, h2, _⟩ := toWireList_cons h
    rcases List.mem_cons.mp hy with rfl | hy
    · exact ⟨a, h1⟩
    · exact toWireList_mem h2 y hy

/-- The total length of the encodings. -/
theorem toWireList_length : ∀ {l r : List Obj} {v w : Bytes}, toWireList l = .ok v → toWireList r = .ok w →
    Each (fun a b => ∀ p q, toWire a = .ok p → toWire b = .ok q → p.length = q.length) l r → v.length = w.length
  | [], [], v, w, h, h', _ => by
    rw [h] at h'; cases h'; rfl
  | x :: xs, y :: ys, v, w, h, h', .cons he hes => by
    obtain ⟨a, b, h1, h2, rfl⟩ := toWireList_cons h
    obtain ⟨a', b', h3, h4, rfl⟩ := toWireList_cons h'
    have := toWireList_length h2 h4 hes
    have := he _ _ h1 h3
    simp; omega

theorem toWireList_perm {l r : List Obj} (hp : l.Perm r) : ∀ {v : Bytes}, toWireList l = .ok v →
    ∃ w, toWireList r = .ok w ∧ w.length = v.length := by
  induction hp with
  | nil => intro v h; exact ⟨v, h, rfl⟩
  | cons x _ ih =>
    intro v h
    obtain ⟨a, b, h1, h2, rfl⟩ := toWireList_cons h
    obtain ⟨w, h3, h4⟩ := ih h2
    exact ⟨a ++ w, by simp [toWireList, h1, h3, bind, Except.bind, pure, Except.pure], by simp [h4]⟩
  | swap x y l =>
    intro v h
    obtain ⟨a, b, h1, h2, rfl⟩ := toWireList_cons h
    obtain ⟨c, d, h3, h4, rfl⟩ := toWireList_cons h2
    exact ⟨c ++ (a ++ d), by simp [toWireList, h1, h3, h4, bind, Except.bind, pure, Except.pure], by simp; omega⟩
  | trans _ _ ih₁ ih₂ =>
    intro v h
    obtain ⟨w, h1, h2⟩ := ih₁ h
    obtain ⟨u, h3, h4⟩ := ih₂ h1
    exact ⟨u, h3, by omega⟩

end Verif.Equality
