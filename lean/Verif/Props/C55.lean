import Verif.Model.Samba
import Verif.Lemmas.Decimal
/-
C55  Samba user and group ids never collide.
-/
namespace Verif.C55
open Verif.Samba

theorem account_uid {values : List Str} {r : Str × List Str} (h : notifyAccount "uidNumber".toList values = .ok (some r)) :
    ∃ (v : Str) (n : Int), values = [v] ∧ Decimal.toInt v = .ok n ∧ r = ("rid".toList, [Decimal.ofInt (n * 2 + 1000)]) := by
  unfold notifyAccount at h
  rw [if_pos rfl] at h
  cases values with
  | nil => cases h
  | cons v vs =>
    cases vs with
    | cons w ws => cases h
    | nil =>
      simp only [single, bind, Except.bind] at h
      cases hn : Decimal.toInt v with
      | error x => simp [hn] at h
      | ok n =>
        simp only [hn, pure, Except.pure, Except.ok.injEq, Option.some.injEq] at h
        exact ⟨v, n, rfl, hn, h.symm⟩

theorem account_gid {values : List Str} {r : Str × List Str} (h : notifyAccount "gidNumber".toList values = .ok (some r)) :
    ∃ (v : Str) (n : Int), values = [v] ∧ Decimal.toInt v = .ok n ∧ r = ("primaryGroupID".toList, [Decimal.ofInt (n * 2 + 1001)]) := by
  unfold notifyAccount at h
  rw [if_neg (by decide), if_pos rfl] at h
  cases values with
  | nil => cases h
  | cons v vs =>
    cases vs with
    | cons w ws => cases h
    | nil =>
      simp only [single, bind, Except.bind] at h
      cases hn : Decimal.toInt v with
      | error x => simp [hn] at h
      | ok n =>
        simp only [hn, pure, Except.pure, Except.ok.injEq, Option.some.injEq] at h
        exact ⟨v, n, rfl, hn, h.symm⟩

/-- No generated user rid is the rid of a group, whatever the numbers. -/
theorem user_group_distinct (uids gids : List Str) (a b : Str) (rs gs : List Str)
    (hu : notifyAccount "uidNumber".toList uids = .ok (some (a, rs))) (hg : notifyAccount "gidNumber".toList gids = .ok (some (b, gs))) :
    ∃ r g, rs = [r] ∧ gs = [g] ∧ r ≠ g := by
  obtain ⟨_, n, _, _, e1⟩ := account_uid hu
  obtain ⟨_, m, _, _, e2⟩ := account_gid hg
  cases e1; cases e2
  refine ⟨_, _, rfl, rfl, fun e => ?_⟩
  have := Decimal.ofInt_injective e
  omega

/-- Users with distinct numbers get distinct rids. -/
theorem users_distinct (u u' : Str) (n n' : Int) (hn : Decimal.toInt u = .ok n) (hn' : Decimal.toInt u' = .ok n') (hne : n ≠ n')
    (a a' : Str) (rs rs' : List Str) (h : notifyAccount "uidNumber".toList [u] = .ok (some (a, rs)))
    (h' : notifyAccount "uidNumber".toList [u'] = .ok (some (a', rs'))) : a = a' ∧ rs ≠ rs' := by
  obtain ⟨_, m, e1, e2, e3⟩ := account_uid h
  obtain ⟨_, m', e1', e2', e3'⟩ := account_uid h'
  cases e1; cases e1'; cases e3; cases e3'
  rw [hn] at e2; cases e2
  rw [hn'] at e2'; cases e2'
  refine ⟨rfl, fun e => ?_⟩
  have := Decimal.ofInt_injective (List.cons.inj e).1
  omega

/-- Groups with distinct numbers get distinct rids. -/
theorem groups_distinct (g g' : Str) (n n' : Int) (hn : Decimal.toInt g = .ok n) (hn' : Decimal.toInt g' = .ok n') (hne : n ≠ n')
    (a a' : Str) (rs rs' : List Str) (h : notifyAccount "gidNumber".toList [g] = .ok (some (a, rs)))
    (h' : notifyAccount "gidNumber".toList [g'] = .ok (some (a', rs'))) : a = a' ∧ rs ≠ rs' := by
  obtain ⟨_, m, e1, e2, e3⟩ := account_gid h
  obtain ⟨_, m', e1', e2', e3'⟩ := account_gid h'
  cases e1; cases e1'; cases e3; cases e3'
  rw [hn] at e2; cases e2
  rw [hn'] at e2'; cases e2'
  refine ⟨rfl, fun e => ?_⟩
  have := Decimal.ofInt_injective (List.cons.inj e).1
  omega

/-! The same for security identifiers. -/

theorem sid_injective (c : SamConfig) {m n : Int} (h : c.sid m = c.sid n) : m = n := by
  have := List.append_cancel_left h
  exact Decimal.ofInt_injective (List.cons.inj this).2

theorem sam_uid {c : SamConfig} {values : List Str} {r : Str × List Str} (h : notifySam c "uidNumber".toList values = .ok (some r)) :
    ∃ (v : Str) (n : Int), values = [v] ∧ Decimal.toInt v = .ok n ∧ r = ("sambaSID".toList, [c.sid (n * 2 + 1000)]) := by
  unfold notifySam at h
  rw [if_pos rfl] at h
  cases values with
  | nil => cases h
  | cons v vs =>
    cases vs with
    | cons w ws => cases h
    | nil =>
      simp only [single, bind, Except.bind] at h
      cases hn : Decimal.toInt v with
      | error x => simp [hn] at h
      | ok n =>
        simp only [hn, pure, Except.pure, Except.ok.injEq, Option.some.injEq] at h
        exact ⟨v, n, rfl, hn, h.symm⟩

theorem sam_gid {c : SamConfig} {values : List Str} {r : Str × List Str} (h : notifySam c "gidNumber".toList values = .ok (some r)) :
    ∃ (v : Str) (n : Int), values = [v] ∧ Decimal.toInt v = .ok n ∧ r = ("sambaPrimaryGroupSID".toList, [c.sid (n * 2 + 1001)]) := by
  unfold notifySam at h
  rw [if_neg (by decide)] at h
  split at h
  · cases values with
    | nil => cases h
    | cons v vs =>
      cases vs with
      | cons w ws => cases h
      | nil =>
        simp only [single, bind, Except.bind] at h
        cases hn : Decimal.toInt v with
        | error x => simp [hn] at h
        | ok n =>
          simp only [hn, pure, Except.pure, Except.ok.injEq, Option.some.injEq] at h
          exact ⟨v, n, rfl, hn, h.symm⟩
  · cases h

/-- In one domain no generated user SID is a group SID, and distinct numbers give distinct SIDs. -/
theorem sids_distinct (c : SamConfig) (u u' g g' : Str) (n n' m m' : Int) (hn : Decimal.toInt u = .ok n) (hn' : Decimal.toInt u' = .ok n')
    (hm : Decimal.toInt g = .ok m) (hm' : Decimal.toInt g' = .ok m') (a a' b b' : Str) (us us' gs gs' : List Str)
    (h1 : notifySam c "uidNumber".toList [u] = .ok (some (a, us))) (h1' : notifySam c "uidNumber".toList [u'] = .ok (some (a', us')))
    (h2 : notifySam c "gidNumber".toList [g] = .ok (some (b, gs))) (h2' : notifySam c "gidNumber".toList [g'] = .ok (some (b', gs'))) :
    us ≠ gs ∧ (us = us' ↔ n = n') ∧ (gs = gs' ↔ m = m') := by
  obtain ⟨_, _, e1, e2, e3⟩ := sam_uid h1
  obtain ⟨_, _, f1, f2, f3⟩ := sam_uid h1'
  obtain ⟨_, _, g1, g2, g3⟩ := sam_gid h2
  obtain ⟨_, _, k1, k2, k3⟩ := sam_gid h2'
  cases e1; cases f1; cases g1; cases k1; cases e3; cases f3; cases g3; cases k3
  rw [hn] at e2; cases e2
  rw [hn'] at f2; cases f2
  rw [hm] at g2; cases g2
  rw [hm'] at k2; cases k2
  refine ⟨fun e => ?_, ⟨fun e => ?_, fun e => by rw [e]⟩, ⟨fun e => ?_, fun e => by rw [e]⟩⟩
  · have := sid_injective c (List.cons.inj e).1; omega
  · have := sid_injective c (List.cons.inj e).1; omega
  · have := sid_injective c (List.cons.inj e).1; omega

/-- A generated SID also determines its domain, for numbers that are not negative. -/
theorem sid_domain (c c' : SamConfig) (m n : Int) (hm : 0 ≤ m) (hn : 0 ≤ n) (h : c.sid m = c'.sid n) : c.domainSID = c'.domainSID ∧ m = n := by
  have digits : ∀ k : Int, 0 ≤ k → ∀ x ∈ Decimal.ofInt k, x ≠ '-' := by
    rintro k hk x hx rfl
    exact absurd (Decimal.ofInt_nonneg_mem hk hx) (by decide)
  have key : ∀ (a b s t : Str), (∀ x ∈ s, x ≠ '-') → (∀ x ∈ t, x ≠ '-') → a ++ '-' :: s = b ++ '-' :: t → a = b ∧ s = t := by
    intro a
    induction a with
    | nil =>
      intro b s t hs ht e
      cases b with
      | nil => exact ⟨rfl, (List.cons.inj e).2⟩
      | cons y b =>
        have := (List.cons.inj e).2
        exact absurd rfl (hs '-' (by rw [this]; simp))
    | cons x a ih =>
      intro b s t hs ht e
      cases b with
      | nil =>
        have := (List.cons.inj e).2
        exact absurd rfl (ht '-' (by rw [← this]; simp))
      | cons y b =>
        obtain ⟨e1, e2⟩ := List.cons.inj e
        obtain ⟨h1, h2⟩ := ih b s t hs ht e2
        exact ⟨by rw [e1, h1], h2⟩
  obtain ⟨h1, h2⟩ := key _ _ _ _ (digits m hm) (digits n hn) h
  exact ⟨h1, Decimal.ofInt_injective h2⟩

/-- The numbers assigned, in both schemas. -/
example : notifyAccount "uidNumber".toList ["1005".toList] = .ok (some ("rid".toList, ["3010".toList])) ∧
    notifyAccount "gidNumber".toList ["1005".toList] = .ok (some ("primaryGroupID".toList, ["3011".toList])) ∧
    notifySam ⟨"S-1-5".toList, none⟩ "uidNumber".toList ["7".toList] = .ok (some ("sambaSID".toList, ["S-1-5-1014".toList])) := by
  decide +kernel

end Verif.C55
