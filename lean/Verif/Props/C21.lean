import Verif.Lemmas.PyStr
import Verif.Model.AttributeSet
/-
C21  An attribute never holds the same value twice.
-/
namespace Verif.C21
open Verif.AttributeSet Verif.PyStr

/-- A call on the value set. -/
inductive Call where
  | add (v : PyStr)
  | remove (v : PyStr)
  deriving DecidableEq, Repr

/-- The value named in a call. -/
def Call.value : Call → PyStr
  | .add v => v
  | .remove v => v

/-- The set after a call; a call that raises leaves it as it was. -/
def step (s : List PyStr) : Call → List PyStr
  | .add v => match add s v with
    | .ok s' => s'
    | .error _ => s
  | .remove v => match remove s v with
    | .ok s' => s'
    | .error _ => s

/-- The set after a history of calls. -/
def run (cs : List Call) (s : List PyStr) : List PyStr := cs.foldl step s

/-- No two elements are the same octets. -/
def Distinct (s : List PyStr) : Prop := s.Pairwise fun x y => x.toBytes ≠ y.toBytes

/-- The set has an element with these octets. -/
def Has (s : List PyStr) (b : Bytes) : Prop := ∃ v ∈ s, v.toBytes = b

/-- A history as seen by one octet string: present exactly if the last call naming it added it. -/
def present (b : Bytes) (cs : List Call) (before : Prop) : Prop :=
  cs.foldl (fun p c => match c with
    | .add v => v.toBytes = b ∨ p
    | .remove v => v.toBytes ≠ b ∧ p) before

theorem firstIn_some {s ks : List PyStr} {k : PyStr} (h : firstIn s ks = some k) : k ∈ s ∧ k ∈ ks := by
  induction ks with
  | nil => cases h
  | cons a ks ih =>
    simp only [firstIn] at h
    split at h
    · rename_i ha; cases h; exact ⟨ha, by simp⟩
    · exact ⟨(ih h).1, by simp [(ih h).2]⟩

theorem firstIn_none {s ks : List PyStr} (h : firstIn s ks = none) : ∀ k ∈ ks, k ∉ s := by
  induction ks with
  | nil => simp
  | cons a ks ih =>
    simp only [firstIn] at h
    split at h
    · cases h
    · rename_i ha
      intro k hk
      rcases List.mem_cons.mp hk with rfl | hk
      · exact ha
      · exact ih h k hk

theorem has_forms {s : List PyStr} {v y : PyStr} (hy : y.toBytes = v.toBytes) (ht : y.isText = !v.isText) :
    (firstIn s [v, y]).isSome ↔ Has s v.toBytes := by
  cases h : firstIn s [v, y] with
  | some k =>
    obtain ⟨h1, h2⟩ := firstIn_some h
    simp only [List.mem_cons, List.not_mem_nil, or_false] at h2
    refine ⟨fun _ => ⟨k, h1, ?_⟩, fun _ => rfl⟩
    rcases h2 with rfl | rfl
    · rfl
    · exact hy
  | none =>
    have hn := firstIn_none h
    refine ⟨nofun, fun ⟨w, hw, he⟩ => ?_⟩
    exfalso
    by_cases hk : w.isText = v.isText
    · exact hn v (by simp) (by rw [← (eq_iff w v).mpr ⟨hk, he⟩]; exact hw)
    · refine hn y (by simp) ?_
      rw [← (eq_iff w y).mpr ⟨?_, he.trans hy.symm⟩]
      · exact hw
      · rw [ht]; revert hk; cases w.isText <;> cases v.isText <;> simp

/-- Adding a value that can be decoded, in either form. -/
theorem add_cases {s : List PyStr} {v : PyStr} (hv : v.Decodable) :
    (Has s v.toBytes ∧ add s v = .ok s) ∨ (¬ Has s v.toBytes ∧ add s v = .ok (v :: s)) := by
  obtain ⟨l, hl⟩ := getStrings_total.mp hv
  obtain ⟨y, rfl, h1, h2⟩ := getStrings_ok hl
  have hf := has_forms (s := s) h1 h2
  cases h : firstIn s [v, y] with
  | some k => exact .inl ⟨hf.mp (by simp [h]), by simp [add, hl, bind, Except.bind, h, pure, Except.pure]⟩
  | none => exact .inr ⟨fun hh => by simpa [h] using hf.mpr hh, by simp [add, hl, bind, Except.bind, h, pure, Except.pure]⟩

/-- Removing a value that can be decoded, in either form. -/
theorem remove_cases {s : List PyStr} {v : PyStr} (hv : v.Decodable) :
    (∃ k ∈ s, k.toBytes = v.toBytes ∧ remove s v = .ok (s.erase k)) ∨
      (¬ Has s v.toBytes ∧ remove s v = .error .keyError) := by
  obtain ⟨l, hl⟩ := getStrings_total.mp hv
  obtain ⟨y, rfl, h1, h2⟩ := getStrings_ok hl
  have hf := has_forms (s := s) h1 h2
  cases h : firstIn s [v, y] with
  | some k =>
    obtain ⟨m1, m2⟩ := firstIn_some h
    simp only [List.mem_cons, List.not_mem_nil, or_false] at m2
    refine .inl ⟨k, m1, ?_, by simp [remove, hl, bind, Except.bind, h, pure, Except.pure]⟩
    rcases m2 with rfl | rfl
    · rfl
    · exact h1
  | none => exact .inr ⟨fun hh => by simpa [h] using hf.mpr hh, by simp [remove, hl, bind, Except.bind, h]⟩

/-- A value that cannot be decoded makes either call raise. -/
theorem undecodable {v : PyStr} (hv : ¬ v.Decodable) (s : List PyStr) :
    (∃ x, add s v = .error x) ∧ (∃ x, remove s v = .error x) := by
  cases h : v.getStrings with
  | ok l => exact absurd (getStrings_total.mpr ⟨l, h⟩) hv
  | error x => exact ⟨⟨x, by simp [add, h, bind, Except.bind]⟩, ⟨x, by simp [remove, h, bind, Except.bind]⟩⟩

theorem same_octets {s : List PyStr} (hs : Distinct s) {v w : PyStr} (hv : v ∈ s) (hw : w ∈ s) (h : v.toBytes = w.toBytes) :
    v = w := by
  induction s with
  | nil => cases hv
  | cons a s ih =>
    rw [Distinct, List.pairwise_cons] at hs
    rcases List.mem_cons.mp hv with e1 | m1 <;> rcases List.mem_cons.mp hw with e2 | m2
    · rw [e1, e2]
    · subst e1; exact absurd h (hs.1 _ m2)
    · subst e2; exact absurd h.symm (hs.1 _ m1)
    · exact ih hs.2 m1 m2

theorem has_erase {s : List PyStr} (hs : Distinct s) {k : PyStr} (hk : k ∈ s) (b : Bytes) :
    Has (s.erase k) b ↔ (k.toBytes ≠ b ∧ Has s b) := by
  have hn : s.Nodup := List.Pairwise.imp (S := (· ≠ ·)) (fun h e => h (congrArg PyStr.toBytes e)) hs
  constructor
  · rintro ⟨v, hv, he⟩
    rw [hn.mem_erase_iff] at hv
    refine ⟨fun hkb => ?_, v, hv.2, he⟩
    exact hv.1 (same_octets hs hv.2 hk (he.trans hkb.symm))
  · rintro ⟨hne, v, hv, he⟩
    exact ⟨v, (hn.mem_erase_iff).mpr ⟨fun e => hne (e ▸ he), hv⟩, he⟩

theorem step_distinct {s : List PyStr} (hs : Distinct s) (c : Call) : Distinct (step s c) := by
  cases c with
  | add v =>
    simp only [step]
    by_cases hv : v.Decodable
    · rcases add_cases (s := s) hv with ⟨_, h⟩ | ⟨hn, h⟩
      · rw [h]; exact hs
      · rw [h]
        exact List.pairwise_cons.mpr ⟨fun w hw e => hn ⟨w, hw, e.symm⟩, hs⟩
    · obtain ⟨x, hx⟩ := (undecodable hv s).1
      rw [hx]; exact hs
  | remove v =>
    simp only [step]
    by_cases hv : v.Decodable
    · rcases remove_cases (s := s) hv with ⟨k, _, _, h⟩ | ⟨_, h⟩
      · rw [h]; exact hs.sublist List.erase_sublist
      · rw [h]; exact hs
    · obtain ⟨x, hx⟩ := (undecodable hv s).2
      rw [hx]; exact hs

/-- No history of calls makes the set hold one octet string twice, whatever the values. -/
theorem never_twice (cs : List Call) (s : List PyStr) (hs : Distinct s) : Distinct (run cs s) := by
  induction cs generalizing s with
  | nil => exact hs
  | cons c cs ih => exact ih _ (step_distinct hs c)

theorem step_has {s : List PyStr} (hs : Distinct s) (c : Call) (hc : c.value.Decodable) (b : Bytes) :
    Has (step s c) b ↔ present b [c] (Has s b) := by
  cases c with
  | add v =>
    simp only [step, present, List.foldl_cons, List.foldl_nil]
    rcases add_cases (s := s) hc with ⟨hh, h⟩ | ⟨_, h⟩
    · simp only [Call.value] at h hh; rw [h]
      exact ⟨.inr, fun | .inl e => e ▸ hh | .inr p => p⟩
    · simp only [Call.value] at h; rw [h]
      simp [Has]
  | remove v =>
    simp only [step, present, List.foldl_cons, List.foldl_nil]
    rcases remove_cases (s := s) hc with ⟨k, hk, he, h⟩ | ⟨hn, h⟩
    · simp only [Call.value] at h he; rw [h, ← he]
      exact has_erase hs hk b
    · simp only [Call.value] at h hn; rw [h]
      exact ⟨fun p => ⟨fun e => hn (e ▸ p), p⟩, fun p => p.2⟩

theorem present_congr (b : Bytes) (cs : List Call) {p q : Prop} (h : p ↔ q) : present b cs p ↔ present b cs q := by
  rw [propext h]

/-- After any history of calls with text or UTF-8 values, the set holds an octet string exactly if the last call naming
it added it.  The full claim has no condition on the values; `refuses_octets` shows that it fails. -/
theorem history_partial (cs : List Call) (hc : ∀ c ∈ cs, c.value.Decodable) (s : List PyStr) (hs : Distinct s) (b : Bytes) :
    Has (run cs s) b ↔ present b cs (Has s b) := by
  induction cs generalizing s with
  | nil => exact Iff.rfl
  | cons c cs ih =>
    show Has (run cs (step s c)) b ↔ present b cs (present b [c] (Has s b))
    rw [ih (fun d hd => hc d (by simp [hd])) _ (step_distinct hs c)]
    exact present_congr b cs (step_has hs c (hc c (by simp)) b)

/-- Adding a fresh value and removing it, in either form, restores the set. -/
theorem add_remove_partial (s : List PyStr) (v w : PyStr) (hv : v.Decodable) (hw : w.toBytes = v.toBytes)
    (hf : ¬ Has s v.toBytes) : run [.add v, .remove w] s = s := by
  have hwd : w.Decodable := by unfold PyStr.Decodable; rw [hw]; exact hv
  have h1 : step s (.add v) = v :: s := by
    rcases add_cases (s := s) hv with ⟨hh, _⟩ | ⟨_, h⟩
    · exact absurd hh hf
    · simp only [step, h]
  show step (step s (.add v)) (.remove w) = s
  rw [h1]
  rcases remove_cases (s := v :: s) hwd with ⟨k, hk, he, h⟩ | ⟨hn, _⟩
  · simp only [step, h]
    rcases List.mem_cons.mp hk with rfl | hk
    · simp
    · exact absurd ⟨k, hk, he.trans hw⟩ hf
  · exact absurd ⟨v, by simp, hw.symm⟩ hn

/-- A value that is not UTF-8, such as a photograph, can be neither added nor removed one at a time. -/
theorem refuses_octets : ∃ v : PyStr, ¬ Has (run [.add v] []) v.toBytes ∧ Has (run [.remove v] [v]) v.toBytes := by
  refine ⟨.bytes [0xff, 0xd8], ?_, ?_⟩
  · have : run [.add (.bytes [0xff, 0xd8])] [] = [] := by decide +kernel
    rw [this]; simp [Has]
  · have : run [.remove (.bytes [0xff, 0xd8])] [.bytes [0xff, 0xd8]] = [.bytes [0xff, 0xd8]] := by decide +kernel
    rw [this]; exact ⟨_, by simp, rfl⟩

/-- The constructor and `update`, which are inherited from `set`, do store a value in both forms. -/
theorem other_routes_store_twice :
    ¬ Distinct (mkSet [.text ['a'], .bytes [97]]) ∧ ¬ Distinct (update [.text ['a']] [.bytes [97]]) := by
  have h1 : mkSet [.text ['a'], .bytes [97]] = [.text ['a'], .bytes [97]] := by decide +kernel
  have h2 : update [.text ['a']] [.bytes [97]] = [.bytes [97], .text ['a']] := by decide +kernel
  have h3 : Utf8.encode ['a'] = [97] := by decide +kernel
  constructor
  · rw [h1]; simp [Distinct, PyStr.toBytes, h3]
  · rw [h2]; simp [Distinct, PyStr.toBytes, h3]

/-- The hypotheses hold of a history that mixes both forms. -/
example : (∀ c ∈ [Call.add (.text ['é']), .add (.bytes [0xc3, 0xa9]), .remove (.text ['b'])], c.value.Decodable) ∧
    run [Call.add (.text ['é']), .add (.bytes [0xc3, 0xa9]), .remove (.text ['b'])] [] = [.text ['é']] := by
  refine ⟨?_, by decide +kernel⟩
  intro c hc
  simp only [List.mem_cons, List.not_mem_nil, or_false] at hc
  rcases hc with rfl | rfl | rfl
  · exact ⟨['é'], rfl⟩
  · exact ⟨['é'], by decide +kernel⟩
  · exact ⟨['b'], rfl⟩

example : Distinct ([] : List PyStr) := List.Pairwise.nil

end Verif.C21
