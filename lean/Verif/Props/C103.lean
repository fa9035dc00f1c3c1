import Verif.Lemmas.PdnsPipe
import Verif.Lemmas.FilterEq
import Verif.Props.C14
/-
C103  The PowerDNS backend answers every line, in order, with what the directory says.

`in_order`: whatever the order in which connections and searches end, what is sent is the answers to the lines, in the order of
the lines, up to the first that is not answered; the program stops when the input has ended and all are answered.  `one_each`,
`kept`, `grows`: one answer for each line, never taken back.  `framed`: the reader can tell where each ends.  `bounded`,
`all_answered`.  `asks_address`, `asks_name`, `plain_address`, `plain_name`: what is searched for.

False: names are put in filters as they are, so that a question for `*` gives the addresses of all hosts (`star`, `injected`),
and names with other syntax fail (`broken`).  Names are compared with case (`upper_case`).  Values that are octets, as the client of
this library finds them, make the answer a failure (`octets_fail`).  If connecting raises, no later question is ever searched
for, and those that wait are never answered (`stuck`, `never_stops`).
-/
namespace Verif.C103
open Verif.PdnsPipe Verif.Spec.Pdns Verif.FilterText

/-- What is sent, and when the program stops. -/
theorem in_order (cfg : Config) (events : List Event) :
    (run cfg events).out = sent (ideal cfg events).slots ∧
    ((run cfg events).stopped = true ↔ (ideal cfg events).ended = true ∧ ∀ s ∈ (ideal cfg events).slots, ∃ l, s = .answered l) := by
  have h := inv_run cfg events
  have hw := workOff_items 0 (ideal cfg events).slots (run cfg events).ended
  have hc : ((run cfg events).out, (run cfg events).work, (run cfg events).stopped) = _ := h.core
  refine ⟨(congrArg Prod.fst hc).trans hw.1, ?_⟩
  rw [show (run cfg events).stopped = _ from (congrArg (fun p => p.2.2) hc).trans hw.2, h.ended]
  simp only [Bool.and_eq_true, List.all_eq_true]
  refine and_congr_right fun _ => forall_congr' fun s => imp_congr_right fun _ => ?_
  cases s <;> simp [Slot.isAnswered]

theorem ideal_append (cfg : Config) (es es' : List Event) : ideal cfg (es ++ es') = es'.foldl (tick cfg) (ideal cfg es) := by
  simp [ideal, List.foldl_append]

/-- What one event does to the slots: some change, some are added. -/
theorem tick_slots (cfg : Config) (i : Ideal) (e : Event) (k : Nat) (l : List Str) (h : i.slots[k]? = some (.answered l)) :
    (tick cfg i e).slots[k]? = some (.answered l) := by
  have happ : ∀ x : Slot, (i.slots ++ [x])[k]? = some (.answered l) := by
    intro x
    rw [List.getElem?_append_left (List.getElem?_eq_some_iff.1 h).1]; exact h
  cases e with
  | line text raises =>
    unfold tick
    dsimp only
    split
    · exact h
    · split
      · exact happ _
      · unfold enter
        dsimp only
        split
        · exact happ _
        · split
          · exact happ _
          · split
            · exact happ _
            · split <;> exact happ _
  | fetched fails =>
    unfold tick
    dsimp only
    split
    · split <;> simp [List.getElem?_map, h, goOn, giveUp]
    · exact h
  | found id r =>
    unfold tick
    dsimp only
    split
    · rename_i q hq
      have hne : id ≠ k := by intro he; subst he; rw [h] at hq; cases hq
      rw [List.getElem?_set_ne hne]; exact h
    · exact h
  | lost => exact h
  | eof => exact h

/-- An answer stays as it is. -/
theorem kept (cfg : Config) (es es' : List Event) (k : Nat) (l : List Str) (h : (ideal cfg es).slots[k]? = some (.answered l)) :
    (ideal cfg (es ++ es')).slots[k]? = some (.answered l) := by
  rw [ideal_append]
  generalize ideal cfg es = i at h
  induction es' generalizing i with
  | nil => exact h
  | cons e es' ih => exact ih _ (tick_slots cfg i e k l h)

theorem sent_prefix {a b : List Slot} (h : ∀ (k : Nat) (l : List Str), a[k]? = some (Slot.answered l) → b[k]? = some (Slot.answered l)) :
    sent a <+: sent b := by
  induction a generalizing b with
  | nil => exact List.nil_prefix
  | cons x a ih =>
    cases x with
    | waiting q => exact List.nil_prefix
    | searching q => exact List.nil_prefix
    | answered l =>
      have h0 := h 0 l rfl
      cases b with
      | nil => cases h0
      | cons y b =>
        simp only [List.getElem?_cons_zero, Option.some.injEq] at h0
        subst h0
        exact (List.prefix_append_right_inj l).2 (ih fun k l' hk => h (k + 1) l' hk)

/-- What was sent is never taken back. -/
theorem grows (cfg : Config) (es es' : List Event) : (run cfg es).out <+: (run cfg (es ++ es')).out := by
  rw [(in_order cfg es).1, (in_order cfg _).1]
  exact sent_prefix fun k l h => kept cfg es es' k l h

theorem enter_length (cfg : Config) (i : Ideal) (q : Question) (r : Option (List Str)) :
    (enter cfg i q r).slots.length = i.slots.length + 1 ∧ (enter cfg i q r).ended = i.ended := by
  unfold enter
  split
  · simp
  · split
    · simp
    · split
      · simp
      · split <;> simp

theorem tick_length (cfg : Config) (i : Ideal) (e : Event) :
    (tick cfg i e).slots.length = i.slots.length + (match e with | .line .. => if i.ended then 0 else 1 | _ => 0) ∧
    (tick cfg i e).ended = (match e with | .eof => true | _ => i.ended) := by
  cases e with
  | line text raises =>
    unfold tick
    dsimp only
    by_cases he : i.ended = true
    · simp [he]
    · simp only [he, Bool.false_eq_true, if_false]
      split
      · exact ⟨by simp, by simp⟩
      · rw [(enter_length ..).1, (enter_length ..).2]
        simp
  | fetched fails =>
    unfold tick
    dsimp only
    split
    · split <;> simp
    · simp
  | found id r =>
    unfold tick
    dsimp only
    split
    · simp
    · simp
  | lost => exact ⟨rfl, rfl⟩
  | eof => exact ⟨rfl, rfl⟩

/-- There is one slot for each line. -/
theorem one_each (cfg : Config) (events : List Event) : (ideal cfg events).slots.length = heard events := by
  have key : ∀ (es : List Event) (i : Ideal),
      (es.foldl (tick cfg) i).slots.length = i.slots.length + if i.ended then 0 else heard es := by
    intro es
    induction es with
    | nil => intro i; simp [heard]
    | cons e es ih =>
      intro i
      rw [List.foldl_cons, ih, (tick_length cfg i e).1, (tick_length cfg i e).2]
      cases he : i.ended <;> cases e <;> simp [heard] <;> omega
  have := key events ⟨false, false, false, false, false, []⟩
  simpa [ideal] using this

theorem answer_fail (t : List Str) : Answer (failLines t) :=
  ⟨t.map fun l => "LOG\t".toList ++ l, "FAIL".toList, rfl, by
    intro l hl
    obtain ⟨x, _, rfl⟩ := List.mem_map.1 hl
    exact .inr (List.prefix_append _ _), .inr (.inl rfl)⟩

theorem answer_end : Answer ["END".toList] := ⟨[], _, rfl, by simp, .inl rfl⟩

theorem answer_log (t : Str) : Answer ["LOG\t".toList ++ t, "END".toList] :=
  ⟨["LOG\t".toList ++ t], _, rfl, by intro l hl; simp only [List.mem_singleton] at hl; subst hl; exact .inr (List.prefix_append _ _), .inl rfl⟩

theorem answer_now (cfg : Config) (main : Bool) (text : Str) (lines : List Str) (h : (hear cfg main text).2 = .now lines) : Answer lines := by
  have hlog : ∀ (s t : Str), "LOG\t".toList <+: s → Answer [s ++ t, "END".toList] := by
    intro s t ⟨r, hr⟩
    rw [← hr, List.append_assoc]
    exact answer_log _
  have hA : ∀ qn qc, questionA cfg qn qc = .now lines → Answer lines := by
    intro qn qc h
    unfold questionA at h
    split at h
    · cases h; exact answer_end
    · cases h
  have hP : ∀ qn qc, questionPTR qn qc = .now lines → Answer lines := by
    intro qn qc h
    unfold questionPTR at h
    split at h
    · cases h; exact answer_end
    · dsimp only at h
      split at h
      · cases h; exact answer_end
      · cases h
  have hQ : ∀ rest, mainQ cfg rest = .now lines → Answer lines := by
    intro rest h
    unfold mainQ at h
    split at h
    · cases h; exact hlog _ _ (by decide)
    · split at h
      · cases h; exact hlog _ _ (by decide)
      · split at h
        · exact hA _ _ h
        · split at h
          · unfold questionANY at h
            split at h
            · exact hP _ _ h
            · exact hA _ _ h
          · split at h
            · exact hP _ _ h
            · cases h; exact answer_end
  have hU : ∀ t u : Str, Answer ["LOG\tUnknown command ".toList ++ cfg.repr t ++ " in state ".toList ++ u, "END".toList] := by
    intro t u
    rw [List.append_assoc, List.append_assoc]
    exact hlog _ _ (by decide)
  unfold hear at h
  generalize (split1 '\t' text).getD (text, []) = p at h
  obtain ⟨type, rest⟩ := p
  dsimp only at h
  split at h
  · split at h
    · exact hQ _ h
    · split at h
      · cases h; exact answer_log "Refusing AXFR".toList
      · split at h
        · cases h; exact answer_end
        · cases h; exact hU _ _
  · split at h
    · split at h
      · cases h; exact ⟨[], _, rfl, by simp, .inr (.inr (List.prefix_append _ _))⟩
      · cases h; exact answer_fail []
    · cases h; exact hU _ _

theorem answer_data (cfg : Config) (q : Question) (vs : List PyStr) (lines : List Str) (h : dataLines cfg q vs = .ok lines) : Answer lines := by
  induction vs generalizing lines with
  | nil => cases h; exact answer_end
  | cons v vs ih =>
    cases v with
    | bytes b => cases h
    | text v =>
      unfold dataLines at h
      cases hr : dataLines cfg q vs with
      | error e => simp only [hr, dataLine, bind, Except.bind] at h; cases h
      | ok r =>
        obtain ⟨body, last, rfl, hb, hl⟩ := ih r hr
        simp only [hr, dataLine, bind, Except.bind, pure, Except.pure, Except.ok.injEq] at h
        subst h
        refine ⟨_ :: body, last, rfl, ?_, hl⟩
        intro l hl
        rcases List.mem_cons.1 hl with rfl | hl
        · refine .inl ?_
          simp only [joinWith, List.append_assoc]
          exact ⟨_, rfl⟩
        · exact hb l hl

theorem answer_finish (cfg : Config) (q : Question) (r : Found) : Answer (finish cfg q r) := by
  unfold finish
  split
  · exact answer_fail _
  · split
    · exact answer_data cfg q _ _ (by assumption)
    · exact answer_fail _

/-- What holds of the slots of the service at all times. -/
structure Sound (i : Ideal) : Prop where
  answers : ∀ l, Slot.answered l ∈ i.slots → Answer l
  bounded : load i ≤ 11
  busy : ∀ q, Slot.waiting q ∈ i.slots → i.fetching = true
  stuck : i.stuck = true → i.fetching = true ∧ i.entry = false
  idle : i.entry = true → i.fetching = false

theorem load_append (i : Ideal) (x : Slot) : load { i with slots := i.slots ++ [x] } = load i + if x.isWaiting then 1 else 0 := by
  unfold load
  cases hx : x.isWaiting <;> simp [hx] <;> omega

theorem looked_cases (cfg : Config) (q : Question) : looked cfg q = .searching q ∨ ∃ t, looked cfg q = .answered (failLines t) := by
  unfold looked
  split
  · exact .inr ⟨_, rfl⟩
  · exact .inl rfl

/-- A slot that is not waiting is appended. -/
theorem Sound.append {i : Ideal} (h : Sound i) (x : Slot) (hx : x.isWaiting = false) (ha : ∀ l, x = .answered l → Answer l) :
    Sound { i with slots := i.slots ++ [x] } := by
  refine ⟨?_, ?_, ?_, h.stuck, h.idle⟩
  · intro l hl
    rcases List.mem_append.1 hl with hl | hl
    · exact h.answers l hl
    · exact ha l (List.mem_singleton.1 hl).symm
  · rw [load_append, hx]; simpa using h.bounded
  · intro q hq
    rcases List.mem_append.1 hq with hq | hq
    · exact h.busy q hq
    · rw [← List.mem_singleton.1 hq] at hx; cases hx

theorem sound_enter (cfg : Config) {i : Ideal} (h : Sound i) (q : Question) (raises : Option (List Str)) : Sound (enter cfg i q raises) := by
  have hwait : i.entry = false → ¬ load i > 10 → Sound { i with slots := i.slots ++ [.waiting q], fetching := true } := by
    intro he hl
    refine ⟨?_, ?_, fun _ _ => rfl, fun hs => ⟨rfl, he⟩, fun hs => absurd (he.symm.trans hs) (by simp)⟩
    · intro l hl
      rcases List.mem_append.1 hl with hl | hl
      · exact h.answers l hl
      · cases List.mem_singleton.1 hl
    · have := load_append i (.waiting q)
      simp only [Slot.isWaiting, if_true] at this
      have e : load { i with slots := i.slots ++ [.waiting q], fetching := true } = load { i with slots := i.slots ++ [.waiting q] } := rfl
      omega
  unfold enter
  split
  · refine h.append _ (looked_not_waiting cfg q) ?_
    intro l hl
    rcases looked_cases cfg q with e | ⟨t, e⟩ <;> rw [e] at hl <;> cases hl
    exact answer_fail t
  · rename_i he
    replace he : i.entry = false := by simpa using he
    split
    · exact h.append _ rfl (fun l hl => by cases hl; exact answer_fail _)
    · rename_i hl
      split
      · rename_i hf
        have := hwait he hl
        rw [← hf] at this
        exact this
      · rename_i hf
        split
        · exact hwait he hl
        · rename_i t
          refine ⟨?_, ?_, fun _ _ => rfl, fun _ => ⟨rfl, he⟩, fun hs => absurd (he.symm.trans hs) (by simp)⟩
          · intro l hl
            rcases List.mem_append.1 hl with hl | hl
            · exact h.answers l hl
            · cases List.mem_singleton.1 hl; exact answer_fail t
          · have : load { i with slots := i.slots ++ [.answered (failLines t)], fetching := true, stuck := true } ≤
                load i + 1 := by
              unfold load
              simp [Slot.isWaiting, List.filter_append]
            omega

theorem sound_tick (cfg : Config) {i : Ideal} (h : Sound i) (e : Event) : Sound (tick cfg i e) := by
  cases e with
  | line text raises =>
    unfold tick
    dsimp only
    split
    · exact h
    · split
      · rename_i m lines hh
        have := h.append (.answered lines) rfl (fun l hl => by cases hl; exact answer_now cfg i.main text lines (by rw [hh]))
        exact ⟨this.answers, this.bounded, this.busy, this.stuck, this.idle⟩
      · rename_i m q hh
        exact sound_enter cfg (i := { i with main := m }) ⟨h.answers, h.bounded, h.busy, h.stuck, h.idle⟩ q raises
  | fetched fails =>
    unfold tick
    dsimp only
    split
    · rename_i hs
      have hst : i.stuck = false := by simpa using hs.2
      have hnone : ∀ g : Slot → Slot, (∀ x, (g x).isWaiting = false) → (i.slots.map g).filter Slot.isWaiting = [] := by
        intro g hg
        rw [List.filter_eq_nil_iff]
        intro x hx
        obtain ⟨y, _, rfl⟩ := List.mem_map.1 hx
        simp [hg]
      have hgo : ∀ x, (goOn cfg x).isWaiting = false := by
        intro x
        cases x with
        | waiting q => exact looked_not_waiting cfg q
        | searching q => rfl
        | answered l => rfl
      have hgive : ∀ t x, (giveUp t x).isWaiting = false := by intro t x; cases x <;> rfl
      split
      · refine ⟨?_, ?_, ?_, ?_, fun _ => rfl⟩
        · intro l hl
          obtain ⟨x, hx, he⟩ := List.mem_map.1 hl
          cases x with
          | waiting q =>
            rcases looked_cases cfg q with e | ⟨t, e⟩ <;> simp only [goOn, e] at he <;> cases he
            exact answer_fail t
          | searching q => cases he
          | answered l' => cases he; exact h.answers l hx
        · unfold load; simp [hnone _ hgo, hst]
        · intro q hq
          obtain ⟨x, hx, he⟩ := List.mem_map.1 hq
          have := hgo x
          rw [he] at this; cases this
        · intro hs'; simp [hst] at hs'
      · rename_i t
        refine ⟨?_, ?_, ?_, ?_, fun _ => rfl⟩
        · intro l hl
          obtain ⟨x, hx, he⟩ := List.mem_map.1 hl
          cases x with
          | waiting q => cases he; exact answer_fail t
          | searching q => cases he
          | answered l' => cases he; exact h.answers l hx
        · unfold load; simp [hnone _ (hgive t), hst]
        · intro q hq
          obtain ⟨x, hx, he⟩ := List.mem_map.1 hq
          have := hgive t x
          rw [he] at this; cases this
        · intro hs'; simp [hst] at hs'
    · exact h
  | found id r =>
    unfold tick
    dsimp only
    split
    · rename_i q hq
      obtain ⟨pre, post, hsl, hid⟩ := found_slot hq
      have hset : i.slots.set id (.answered (finish cfg q r)) = pre ++ .answered (finish cfg q r) :: post := by
        rw [hsl, ← hid]; simp
      refine ⟨?_, ?_, ?_, h.stuck, h.idle⟩
      · intro l hl
        rcases List.mem_or_eq_of_mem_set hl with hl | hl
        · exact h.answers l hl
        · cases hl; exact answer_finish cfg q r
      · have hb := h.bounded
        unfold load at hb ⊢
        simp only [hset]
        rw [hsl] at hb
        simpa [List.filter_append, List.filter_cons, Slot.isWaiting] using hb
      · intro q' hq'
        rcases List.mem_or_eq_of_mem_set hq' with hl | hl
        · exact h.busy q' hl
        · cases hl
    · exact h
  | lost => exact ⟨h.answers, h.bounded, h.busy, fun hs => ⟨(h.stuck hs).1, rfl⟩, nofun⟩
  | eof => exact ⟨h.answers, h.bounded, h.busy, h.stuck, h.idle⟩

theorem sound_fold (cfg : Config) (es : List Event) (i : Ideal) (h : Sound i) : Sound (es.foldl (tick cfg) i) := by
  induction es generalizing i with
  | nil => exact h
  | cons e es ih => exact ih _ (sound_tick cfg h e)

theorem sound (cfg : Config) (events : List Event) : Sound (ideal cfg events) :=
  sound_fold cfg events _ ⟨nofun, by simp [load], nofun, nofun, nofun⟩

theorem inner_not_last {l : Str} (h : Inner l) : ¬ Last l := by
  intro h'
  have key : ∀ p q : Str, p <+: l → q <+: l → p <+: q ∨ q <+: p := fun p q hp hq => List.prefix_or_prefix_of_prefix hp hq
  rcases h with h | h <;> rcases h' with rfl | rfl | h'
  · revert h; decide
  · revert h; decide
  · rcases key _ _ h h' with h | h <;> revert h <;> decide
  · revert h; decide
  · revert h; decide
  · rcases key _ _ h h' with h | h <;> revert h <;> decide

/-- Every answer is one of the protocol, and it can be seen where one ends and the next begins. -/
theorem framed (cfg : Config) (events : List Event) :
    (∀ l, Slot.answered l ∈ (ideal cfg events).slots → Answer l) ∧
    ∀ a b x y : List Str, Answer a → Answer b → a ++ x = b ++ y → a = b ∧ x = y := by
  refine ⟨(sound cfg events).answers, ?_⟩
  rintro _ _ x y ⟨b1, l1, rfl, h1, e1⟩ ⟨b2, l2, rfl, h2, e2⟩ h
  induction b1 generalizing b2 with
  | nil =>
    cases b2 with
    | nil => simpa using h
    | cons z b2 =>
      simp only [List.nil_append, List.cons_append, List.cons.injEq] at h
      exact absurd (h.1 ▸ e1) (inner_not_last (h2 z (by simp)))
  | cons z b1 ih =>
    cases b2 with
    | nil =>
      simp only [List.nil_append, List.cons_append, List.cons.injEq] at h
      exact absurd (h.1 ▸ e2) (inner_not_last (h1 z (by simp)))
    | cons z' b2 =>
      simp only [List.cons_append, List.cons.injEq] at h
      obtain ⟨rfl, h⟩ := h
      have := ih (fun l hl => h1 l (by simp [hl])) b2 (fun l hl => h2 l (by simp [hl])) h
      exact ⟨by rw [List.cons_append, List.cons_append, this.1], this.2⟩

/-- No more than eleven questions wait for the directory. -/
theorem bounded (cfg : Config) (events : List Event) : ((ideal cfg events).slots.filter Slot.isWaiting).length ≤ 11 := by
  have := (sound cfg events).bounded
  unfold load at this
  omega

theorem found_rest (cfg : Config) (rs : Nat → Found) (n : Nat) (i : Ideal) (hw : ∀ q, Slot.waiting q ∉ i.slots) (he : i.ended = true) :
    (((List.range n).map fun k => Event.found k (rs k)).foldl (tick cfg) i).ended = true ∧
    (((List.range n).map fun k => Event.found k (rs k)).foldl (tick cfg) i).slots.length = i.slots.length ∧
    (∀ q, Slot.waiting q ∉ (((List.range n).map fun k => Event.found k (rs k)).foldl (tick cfg) i).slots) ∧
    ∀ k < n, ∀ x, (((List.range n).map fun k => Event.found k (rs k)).foldl (tick cfg) i).slots[k]? = some x → ∃ l, x = .answered l := by
  induction n with
  | zero => exact ⟨he, rfl, hw, nofun⟩
  | succ n ih =>
    rw [List.range_succ, List.map_append, List.foldl_append]
    generalize (((List.range n).map fun k => Event.found k (rs k)).foldl (tick cfg) i) = j at ih
    obtain ⟨h1, h2, h3, h4⟩ := ih
    simp only [List.map_cons, List.map_nil, List.foldl_cons, List.foldl_nil]
    unfold tick
    dsimp only
    split
    · rename_i q hq
      refine ⟨h1, by simpa using h2, ?_, ?_⟩
      · intro q' hq'
        rcases List.mem_or_eq_of_mem_set hq' with hl | hl
        · exact h3 q' hl
        · cases hl
      · intro k hk x hx
        rw [List.getElem?_set] at hx
        split at hx
        · split at hx
          · cases hx; exact ⟨_, rfl⟩
          · cases hx
        · exact h4 k (by omega) x hx
    · rename_i hq
      refine ⟨h1, h2, h3, ?_⟩
      intro k hk x hx
      rcases Nat.lt_succ_iff_lt_or_eq.1 hk with hk | rfl
      · exact h4 k hk x hx
      · cases x with
        | answered l => exact ⟨l, rfl⟩
        | waiting q => exact absurd (List.mem_of_getElem? hx) (h3 q)
        | searching q => exact absurd hx (hq q)

/-- When the input has ended, and the connection to the directory and every search have ended in whatever way, all lines are
answered and the program stops. -/
theorem all_answered (cfg : Config) (events : List Event) (hs : (ideal cfg events).stuck = false) (f : Option (List Str)) (rs : Nat → Found) :
    (run cfg (events ++ [.eof, .fetched f] ++ (List.range (heard events)).map fun k => .found k (rs k))).stopped = true := by
  rw [(in_order ..).2, ideal_append, ideal_append]
  have hn := one_each cfg events
  have hb := (sound cfg events).busy
  generalize ideal cfg events = i at hs hn hb
  have key : (∀ q, Slot.waiting q ∉ (([Event.eof, .fetched f]).foldl (tick cfg) i).slots) ∧
      (([Event.eof, .fetched f]).foldl (tick cfg) i).ended = true ∧
      (([Event.eof, .fetched f]).foldl (tick cfg) i).slots.length = i.slots.length := by
    simp only [List.foldl_cons, List.foldl_nil]
    have e0 : tick cfg i .eof = { i with ended := true } := rfl
    rw [e0]
    unfold tick
    dsimp only
    by_cases hf : i.fetching = true
    · rw [if_pos ⟨hf, by simp [hs]⟩]
      split
      · refine ⟨?_, rfl, by simp⟩
        intro q hq
        obtain ⟨x, hx, he⟩ := List.mem_map.1 hq
        cases x with
        | waiting q' =>
          have := looked_not_waiting cfg q'
          rw [show looked cfg q' = _ from he] at this; cases this
        | searching q' => cases he
        | answered l => cases he
      · refine ⟨?_, rfl, by simp⟩
        intro q hq
        obtain ⟨x, hx, he⟩ := List.mem_map.1 hq
        cases x <;> cases he
    · rw [if_neg (by simp [hf])]
      exact ⟨fun q hq => hf (hb q hq), rfl, rfl⟩
  obtain ⟨k1, k2, k3⟩ := key
  obtain ⟨h1, h2, _, h4⟩ := found_rest cfg rs (heard events) _ k1 k2
  refine ⟨h1, fun s hs => ?_⟩
  obtain ⟨k, hk⟩ := List.getElem?_of_mem hs
  refine h4 k ?_ s hk
  have := (List.getElem?_eq_some_iff.1 hk).1
  omega

/-- Once connecting to the directory has raised, questions that wait are never answered, and none is ever searched for. -/
theorem stuck (cfg : Config) (es es' : List Event) (hs : (ideal cfg es).stuck = true) :
    (∀ (k : Nat) (q : Question), (ideal cfg es).slots[k]? = some (.waiting q) → (ideal cfg (es ++ es')).slots[k]? = some (.waiting q)) ∧
    ∀ (k : Nat) (q : Question), (ideal cfg es).slots.length ≤ k → (ideal cfg (es ++ es')).slots[k]? ≠ some (.searching q) := by
  rw [ideal_append]
  have hsound := sound cfg es
  generalize ideal cfg es = i at hs hsound
  have key : ∀ (es : List Event) (j : Ideal), Sound j → j.stuck = true →
      (∀ (k : Nat) (q : Question), j.slots[k]? = some (.waiting q) → (es.foldl (tick cfg) j).slots[k]? = some (.waiting q)) ∧
      ∀ n, n ≤ j.slots.length → (∀ (k : Nat) (q : Question), n ≤ k → j.slots[k]? ≠ some (.searching q)) →
        ∀ (k : Nat) (q : Question), n ≤ k → (es.foldl (tick cfg) j).slots[k]? ≠ some (.searching q) := by
    intro es
    induction es with
    | nil => exact fun j _ _ => ⟨fun _ _ h => h, fun _ _ h => h⟩
    | cons e es ih =>
      intro j hj hs
      have hone : (tick cfg j e).stuck = true ∧ j.slots.length ≤ (tick cfg j e).slots.length ∧
          (∀ (k : Nat) (q : Question), j.slots[k]? = some (.waiting q) → (tick cfg j e).slots[k]? = some (.waiting q)) ∧
          ∀ (k : Nat) (q : Question), (tick cfg j e).slots[k]? = some (.searching q) → j.slots[k]? = some (.searching q) := by
        have happ : ∀ x : Slot, (∀ q, x ≠ .searching q) → j.slots.length ≤ (j.slots ++ [x]).length ∧
            (∀ (k : Nat) (q : Question), j.slots[k]? = some (.waiting q) → (j.slots ++ [x])[k]? = some (.waiting q)) ∧
            ∀ (k : Nat) (q : Question), (j.slots ++ [x])[k]? = some (.searching q) → j.slots[k]? = some (.searching q) := by
          intro x hx
          refine ⟨by simp, ?_, ?_⟩
          · intro k q h
            rw [List.getElem?_append_left (List.getElem?_eq_some_iff.1 h).1]; exact h
          · intro k q h
            rcases Nat.lt_or_ge k j.slots.length with hk | hk
            · rwa [List.getElem?_append_left hk] at h
            · rw [List.getElem?_append_right hk] at h
              rcases Nat.eq_zero_or_pos (k - j.slots.length) with h0 | h0
              · rw [h0] at h
                simp only [List.getElem?_cons_zero, Option.some.injEq] at h
                exact absurd h (hx q)
              · rw [List.getElem?_eq_none (by simp only [List.length_singleton]; exact h0)] at h; cases h
        obtain ⟨hf, he⟩ := hj.stuck hs
        have hid : j.stuck = true ∧ j.slots.length ≤ j.slots.length ∧
            (∀ (k : Nat) (q : Question), j.slots[k]? = some (.waiting q) → j.slots[k]? = some (.waiting q)) ∧
            ∀ (k : Nat) (q : Question), j.slots[k]? = some (.searching q) → j.slots[k]? = some (.searching q) := ⟨hs, Nat.le_refl _, fun _ _ h => h, fun _ _ h => h⟩
        cases e with
        | line text raises =>
          unfold tick
          dsimp only
          split
          · exact hid
          · split
            · exact ⟨hs, happ _ (by simp)⟩
            · unfold enter
              dsimp only
              rw [he, hf]
              simp only [Bool.false_eq_true, if_false, if_true]
              split
              · exact ⟨hs, happ _ (by simp)⟩
              · exact ⟨hs, happ _ (by simp)⟩
        | fetched fails =>
          unfold tick
          dsimp only
          rw [if_neg (by simp [hs])]
          exact hid
        | found id r =>
          unfold tick
          dsimp only
          split
          · rename_i q hq
            refine ⟨hs, by simp, ?_, ?_⟩
            · intro k q' h
              rw [List.getElem?_set_ne (by rintro rfl; rw [h] at hq; cases hq)]; exact h
            · intro k q' h
              rw [List.getElem?_set] at h
              split at h
              · split at h <;> cases h
              · exact h
          · exact hid
        | lost => exact hid
        | eof => exact hid
      obtain ⟨k1, k2, k3, k4⟩ := hone
      obtain ⟨r1, r2⟩ := ih _ (sound_tick cfg hj e) k1
      refine ⟨fun k q h => r1 k q (k3 k q h), fun n hn h => r2 n (Nat.le_trans hn k2) fun k q hk hx => h k q hk (k4 k q hx)⟩
  obtain ⟨k1, k2⟩ := key es' i hsound hs
  refine ⟨k1, k2 _ (Nat.le_refl _) ?_⟩
  intro k q hk h
  rw [List.getElem?_eq_none hk] at h; cases h

/-- Then, if one waits, the program never stops. -/
theorem never_stops (cfg : Config) (es es' : List Event) (hs : (ideal cfg es).stuck = true) (k : Nat) (q : Question)
    (hk : (ideal cfg es).slots[k]? = some (.waiting q)) : (run cfg (es ++ es')).stopped = false := by
  have h := (stuck cfg es es' hs).1 k q hk
  cases hst : (run cfg (es ++ es')).stopped with
  | false => rfl
  | true =>
    obtain ⟨l, hl⟩ := ((in_order cfg (es ++ es')).2.1 hst).2 _ (List.mem_of_getElem? h)
    cases hl

/-! ### What is asked -/

theorem split1_first {c : Char} {a : Str} (h : c ∉ a) (b : Str) : split1 c (a ++ c :: b) = some (a, b) := by
  induction a with
  | nil => simp [split1]
  | cons x a ih =>
    simp only [List.mem_cons, not_or] at h
    have hx : x ≠ c := fun e => h.1 e.symm
    simp [split1, hx, ih h.2]

theorem hear_question (cfg : Config) (type name ident ip : Str) (hn : '\t' ∉ name) (ht : '\t' ∉ type) (hi : '\t' ∉ ident) :
    hear cfg true (question type name ident ip) = (true,
      if type = "A".toList then questionA cfg name "IN".toList
      else if type = "ANY".toList then questionANY cfg name "IN".toList
      else if type = "PTR".toList then questionPTR name "IN".toList
      else .now ["END".toList]) := by
  have e1 : question type name ident ip = ['Q'] ++ '\t' :: (name ++ '\t' :: ("IN".toList ++ '\t' :: (type ++ '\t' :: (ident ++ '\t' :: ip)))) := by
    have a : "Q\t".toList = ['Q', '\t'] := by decide
    have b : "\tIN\t".toList = '\t' :: "IN".toList ++ ['\t'] := by decide
    simp [question, a, b]
  have hf : fields (name ++ '\t' :: ("IN".toList ++ '\t' :: (type ++ '\t' :: (ident ++ '\t' :: ip)))) =
      some (name, "IN".toList, type, ident, ip) := by
    unfold fields
    simp only [split1_first hn, split1_first (show '\t' ∉ "IN".toList by decide), split1_first ht, split1_first hi, bind, Option.bind, pure]
  have hq : (['Q'] : Str) = "Q".toList := by decide
  unfold hear
  rw [e1, split1_first (by decide)]
  simp only [Option.getD_some, if_true, hq]
  unfold mainQ
  rw [hf]
  simp

theorem split1_some {c : Char} {s : Str} {p : Str × Str} (h : split1 c s = some p) : s = p.1 ++ c :: p.2 := by
  induction s generalizing p with
  | nil => cases h
  | cons x s ih =>
    unfold split1 at h
    split at h
    · rename_i e; cases h; rw [e]; rfl
    · cases hs : split1 c s with
      | none => rw [hs] at h; cases h
      | some q => rw [hs] at h; cases h; rw [ih hs]; rfl

/-- Questions are answered after the right greeting and not before; nothing ends that. -/
theorem greeting_iff (cfg : Config) (main : Bool) (line : Str) :
    (hear cfg main line).1 = true ↔ main = true ∨ line = "HELO\t1".toList := by
  have e : "HELO\t1".toList = "HELO".toList ++ '\t' :: ['1'] := by decide
  cases main with
  | true =>
    simp only [true_or, iff_true]
    unfold hear
    simp only [if_true]
    repeat' split
    all_goals rfl
  | false =>
    simp only [Bool.false_eq_true, false_or]
    constructor
    · intro h
      unfold hear at h
      cases hs : split1 '\t' line with
      | none =>
        rw [hs] at h
        simp only [Option.getD_none, Bool.false_eq_true, if_false] at h
        split at h
        · split at h
          · rename_i h1; cases h1
          · cases h
        · cases h
      | some p =>
        rw [hs] at h
        simp only [Option.getD_some, Bool.false_eq_true, if_false] at h
        split at h
        · rename_i h1
          split at h
          · rename_i h2; rw [split1_some hs, h1, h2, e]
          · cases h
        · cases h
    · rintro rfl
      unfold hear
      rw [e, split1_first (by decide)]
      simp

theorem before_append (s t : Str) : before t (s ++ t) = some s := by
  unfold before
  rw [if_pos (List.isSuffixOf_iff_suffix.2 (List.suffix_append s t))]
  simp

/-- A question for the addresses of a name of the domain looks for the rest of the name; others give nothing. -/
theorem asks_address (cfg : Config) (name ident ip : Str) (hn : '\t' ∉ name) (hi : '\t' ∉ ident) :
    (∀ cn, name = cn ++ '.' :: cfg.domain → hear cfg true (question "A".toList name ident ip) =
      (true, .ask ⟨.a, name, "IN".toList, "(&(cn=".toList ++ cn ++ ")(ipHostNumber=*))".toList⟩)) ∧
    ((∀ cn, name ≠ cn ++ '.' :: cfg.domain) → hear cfg true (question "A".toList name ident ip) = (true, .now ["END".toList])) := by
  rw [hear_question cfg "A".toList name ident ip hn (by decide) hi, if_pos rfl]
  unfold questionA
  constructor
  · rintro cn rfl
    rw [before_append]
  · intro h
    have : before ('.' :: cfg.domain) name = none := by
      unfold before
      rw [if_neg]
      intro hs
      obtain ⟨r, hr⟩ := List.isSuffixOf_iff_suffix.1 hs
      exact h r hr.symm
    rw [this]

theorem splitAll_last {c : Char} {a : Str} (h : c ∉ a) : splitAll c a = [a] := by
  induction a with
  | nil => rfl
  | cons x a ih =>
    simp only [List.mem_cons, not_or] at h
    have hx : x ≠ c := fun e => h.1 e.symm
    simp [splitAll, ih h.2, hx]

theorem splitAll_first {c : Char} {a : Str} (h : c ∉ a) (s : Str) : splitAll c (a ++ c :: s) = a :: splitAll c s := by
  induction a with
  | nil =>
    have : splitAll c s ≠ [] := by
      induction s with
      | nil => simp [splitAll]
      | cons y s ih =>
        unfold splitAll
        split
        · contradiction
        · split <;> simp
    match hs : splitAll c s with
    | [] => exact absurd hs this
    | p :: ps => simp [splitAll, hs]
  | cons x a ih =>
    simp only [List.mem_cons, not_or] at h
    have hx : x ≠ c := fun e => h.1 e.symm
    simp [splitAll, ih h.2, hx]

/-- A question for the name of an address looks for the address. -/
theorem asks_name (cfg : Config) (a b c d ident ip : Str) (h : ∀ x ∈ [a, b, c, d], '\t' ∉ x ∧ '.' ∉ x) (hi : '\t' ∉ ident) :
    hear cfg true (question "PTR".toList (joinWith ['.'] [d, c, b, a] ++ ".in-addr.arpa".toList) ident ip) =
      (true, .ask ⟨.ptr, joinWith ['.'] [d, c, b, a] ++ ".in-addr.arpa".toList, "IN".toList,
        "(ipHostNumber=".toList ++ joinWith ['.'] [a, b, c, d] ++ ")".toList⟩) := by
  have ha := h a (by simp)
  have hb := h b (by simp)
  have hc := h c (by simp)
  have hd := h d (by simp)
  have hs : splitAll '.' (joinWith ['.'] [d, c, b, a]) = [d, c, b, a] := by
    have e : joinWith ['.'] [d, c, b, a] = d ++ '.' :: (c ++ '.' :: (b ++ '.' :: a)) := by simp [joinWith]
    rw [e, splitAll_first hd.2, splitAll_first hc.2, splitAll_first hb.2, splitAll_last ha.2]
  have ht : '\t' ∉ joinWith ['.'] [d, c, b, a] ++ ".in-addr.arpa".toList := by
    have h1 : '\t' ∉ ".in-addr.arpa".toList := by decide
    intro hm
    rcases List.mem_append.1 hm with hm | hm
    · simp only [joinWith, List.mem_append, List.mem_singleton] at hm
      simp only [ha.1, hb.1, hc.1, hd.1] at hm
      revert hm; decide
    · exact h1 hm
  rw [hear_question cfg "PTR".toList _ ident ip ht (by decide) hi]
  rw [if_neg (by decide), if_neg (by decide), if_pos rfl]
  unfold questionPTR
  rw [before_append]
  simp only [hs]
  rw [if_neg (by simp)]
  have e : (")".toList : Str) = [')'] := by decide
  rw [e]
  rfl

theorem escape_id {s : Str} (h : ∀ c ∈ s, c ∉ valueStops) : escape s = s := by
  induction s with
  | nil => rfl
  | cons c s ih =>
    have e : escape (c :: s) = escape [c] ++ escape s := escape_append [c] s
    rw [e, escape_plain (h c (by simp)), ih (fun x hx => h x (by simp [hx]))]
    rfl

theorem plain_escape {s : Str} (h : Plain s) : escape s = s :=
  escape_id fun c hc => by
    obtain ⟨h1, h2, h3, h4, h5, _⟩ := h.2 c hc
    simp [valueStops, h1, h2, h3, h4, h5]

theorem plain_tabFree {s : Str} (h : Plain s) : Spec.TabFree s := ⟨h.1, fun hm => (h.2 _ hm).2.2.2.2.2 rfl⟩

def cnName : Str := ['c', 'n']
def ipName : Str := ['i', 'p', 'H', 'o', 's', 't', 'N', 'u', 'm', 'b', 'e', 'r']

theorem cn_attr : Spec.AttrName cnName := ⟨'c', ['n'], rfl, by decide, by decide⟩
theorem ip_attr : Spec.AttrName ipName := ⟨'i', _, rfl, by decide, by decide⟩

/-- For a name without filter syntax, the search is for the hosts of that name that have an address. -/
theorem plain_address (cn : Str) (h : Plain cn) :
    parseFilter ("(&(cn=".toList ++ cn ++ ")(ipHostNumber=*))".toList) = .ok (.and [.equality cnName cn, .present ipName]) := by
  obtain ⟨t, ht, hp⟩ := C14.text_roundtrip_partial (.and [.equality cnName cn, .present ipName]) (.and _ (by simp) (by
    intro f hf
    simp only [List.mem_cons, List.not_mem_nil, or_false] at hf
    rcases hf with rfl | rfl
    · exact .equality _ _ cn_attr (plain_tabFree h)
    · exact .present _ ip_attr))
  have e1 : "(&(cn=".toList = ['(', '&', '(', 'c', 'n', '='] := by decide
  have e2 : ")(ipHostNumber=*))".toList = ')' :: '(' :: (ipName ++ ['=', '*', ')', ')']) := by decide
  simp only [Filter.asText, Filter.asTexts, bind, Except.bind, pure, Except.pure, plain_escape h, Except.ok.injEq] at ht
  rw [e1, e2, ← hp, ← ht]
  simp [cnName]

/-- For an address without filter syntax, the search is for the hosts that have it. -/
theorem plain_name (ip : Str) (h : Plain ip) :
    parseFilter ("(ipHostNumber=".toList ++ ip ++ ")".toList) = .ok (.equality ipName ip) := by
  obtain ⟨t, ht, hp⟩ := C14.text_roundtrip_partial (.equality ipName ip) (.equality _ _ ip_attr (plain_tabFree h))
  have e1 : "(ipHostNumber=".toList = '(' :: (ipName ++ ['=']) := by decide
  have e2 : ")".toList = [')'] := by decide
  simp only [Filter.asText, plain_escape h, Except.ok.injEq] at ht
  rw [e1, e2, ← hp, ← ht]
  simp

/-- The record for a value. -/
theorem dataLine_text (cfg : Config) (kind : Kind) (name filter v : Str) :
    dataLine cfg ⟨kind, name, "IN".toList, filter⟩ (.text v) = .ok (match kind with
      | .a => record "A".toList name v
      | .ptr => record "PTR".toList name (v ++ ['.'] ++ cfg.domain ++ ['.'])) := by
  have e1 : "DATA\t".toList = "DATA".toList ++ ['\t'] := by decide
  have e2 : "\tIN\t".toList = '\t' :: ("IN".toList ++ ['\t']) := by decide
  have e3 : "\t3600\t-1\t".toList = '\t' :: ("3600".toList ++ '\t' :: ("-1".toList ++ ['\t'])) := by decide
  unfold dataLine record
  rw [e1, e2, e3]
  generalize "DATA".toList = x1
  generalize "IN".toList = x2
  generalize "3600".toList = x3
  generalize "-1".toList = x4
  generalize "A".toList = x5
  generalize "PTR".toList = x6
  cases kind <;> simp [joinWith]

/-- The answer to a question: one record for each value found. -/
theorem records (cfg : Config) (kind : Kind) (name filter : Str) (found : List (List Str)) :
    finish cfg ⟨kind, name, "IN".toList, filter⟩ (.ok (found.map fun vs => vs.map PyStr.text)) =
      (found.flatten.map fun v => match kind with
        | .a => record "A".toList name v
        | .ptr => record "PTR".toList name (v ++ ['.'] ++ cfg.domain ++ ['.'])) ++ ["END".toList] := by
  have e : (found.map fun vs => vs.map PyStr.text).flatten = found.flatten.map PyStr.text := List.map_flatten.symm
  have key : ∀ vs : List Str, dataLines cfg ⟨kind, name, "IN".toList, filter⟩ (vs.map PyStr.text) =
      .ok ((vs.map fun v => match kind with
        | .a => record "A".toList name v
        | .ptr => record "PTR".toList name (v ++ ['.'] ++ cfg.domain ++ ['.'])) ++ ["END".toList]) := by
    intro vs
    induction vs with
    | nil => rfl
    | cons v vs ih =>
      simp only [List.map_cons, dataLines, dataLine_text, ih, bind, Except.bind, pure, Except.pure, List.cons_append]
  unfold finish
  simp only [e, key]

/-- Values that are octets make the answer a failure. -/
theorem octets_fail (cfg : Config) (q : Question) (found : List (List PyStr)) (b : Bytes) (vs : List PyStr) (h : vs ∈ found)
    (hb : PyStr.bytes b ∈ vs) : finish cfg q (.ok found) = failLines (cfg.trace .typeError) := by
  have key : ∀ l : List PyStr, PyStr.bytes b ∈ l → dataLines cfg q l = .error .typeError := by
    intro l
    induction l with
    | nil => nofun
    | cons v l ih =>
      intro hm
      cases v with
      | bytes b' => rfl
      | text s =>
        rcases List.mem_cons.1 hm with hm | hm
        · cases hm
        · simp only [dataLines, dataLine, ih hm, bind, Except.bind]
  unfold finish
  simp only [key found.flatten (List.mem_flatten.2 ⟨vs, h, hb⟩)]

/-! ### Where it fails -/

/-- A question for `*` looks for all hosts that have an address. -/
theorem star : parseFilter ("(&(cn=".toList ++ ['*'] ++ ")(ipHostNumber=*))".toList) = .ok (.and [.present cnName, .present ipName]) := by
  decide +kernel

/-- Whatever `g` is, a question can be made that has an answer exactly if `g` holds of the host `x`. -/
theorem injected (x : Str) (hx : Plain x) (g : Filter) (hg : Spec.Valid Spec.TabFree g) : ∃ cn,
    parseFilter ("(&(cn=".toList ++ cn ++ ")(ipHostNumber=*))".toList) =
      .ok (.and [.equality cnName x, g, .equality cnName x, .present ipName]) := by
  obtain ⟨t', ht', _⟩ := C14.text_roundtrip_partial g hg
  obtain ⟨t, ht, hp⟩ := C14.text_roundtrip_partial (.and [.equality cnName x, g, .equality cnName x, .present ipName]) (.and _ (by simp) (by
    intro f hf
    simp only [List.mem_cons, List.not_mem_nil, or_false] at hf
    rcases hf with rfl | rfl | rfl | rfl
    · exact .equality _ _ cn_attr (plain_tabFree hx)
    · exact hg
    · exact .equality _ _ cn_attr (plain_tabFree hx)
    · exact .present _ ip_attr))
  refine ⟨x ++ ')' :: (t' ++ '(' :: (cnName ++ '=' :: x)), ?_⟩
  have e1 : "(&(cn=".toList = ['(', '&', '(', 'c', 'n', '='] := by decide
  have e2 : ")(ipHostNumber=*))".toList = ')' :: '(' :: (ipName ++ ['=', '*', ')', ')']) := by decide
  simp only [Filter.asText, Filter.asTexts, bind, Except.bind, pure, Except.pure, plain_escape hx, ht', Except.ok.injEq] at ht
  rw [e1, e2, ← hp, ← ht]
  simp [cnName]

/-- Names with other syntax fail, though they are names of the domain. -/
theorem broken : parseFilter ("(&(cn=".toList ++ ['('] ++ ")(ipHostNumber=*))".toList) = .error .parseError ∧
    parseFilter ("(&(cn=".toList ++ [] ++ ")(ipHostNumber=*))".toList) = .error .parseError := by decide +kernel

/-- A domain, for examples. -/
def home : Config := ⟨"example.com".toList, "pdns".toList, fun s => s, fun _ => ["Traceback".toList]⟩

/-- Upper case and lower case are different, which they are not in DNS (RFC 4343). -/
theorem upper_case : hear home true (question "A".toList "WWW.EXAMPLE.COM".toList "-1".toList "127.0.0.1".toList) =
    (true, .now ["END".toList]) := by decide +kernel

/-! ### Examples -/

def helo : Event := .line "HELO\t1".toList none
def www : Event := .line (question "A".toList "www.example.com".toList "-1".toList "127.0.0.1".toList) none
def ptr : Event := .line (question "PTR".toList "1.0.0.10.in-addr.arpa".toList "-1".toList "127.0.0.1".toList) none
def ping : Event := .line "PING".toList none

/-- Two questions and a ping arrive; the second question is answered before the first. -/
def traffic : List Event := [helo, www, ptr, ping, .fetched none, .found 2 (.ok [[.text "www".toList]]), .eof, .found 1 (.ok [[.text "10.0.0.1".toList]])]

example : (run home traffic).out = ["OK\tpdns".toList, record "A".toList "www.example.com".toList "10.0.0.1".toList, "END".toList,
    record "PTR".toList "1.0.0.10.in-addr.arpa".toList "www.example.com.".toList, "END".toList, "END".toList] ∧
    (run home traffic).stopped = true := by decide +kernel

/-- Before the first question is answered, only the greeting was sent. -/
example : (run home (traffic.take 7)).out = ["OK\tpdns".toList] ∧ (run home (traffic.take 7)).stopped = false ∧
    (ideal home (traffic.take 7)).stuck = false ∧ heard (traffic.take 7) = 4 := by decide +kernel

/-- Connecting raises, then another question comes. -/
def trouble : List Event := [helo, .line (question "A".toList "www.example.com".toList "-1".toList "127.0.0.1".toList) (some ["no".toList]), www]

example : (ideal home trouble).stuck = true ∧ (run home trouble).out = ["OK\tpdns".toList, "LOG\tno".toList, "FAIL".toList] ∧
    (ideal home trouble).slots[2]? = some (.waiting ⟨.a, "www.example.com".toList, "IN".toList, "(&(cn=www)(ipHostNumber=*))".toList⟩) := by
  decide +kernel

/-- Eleven questions wait; the twelfth fails. -/
example : ((ideal home (helo :: List.replicate 12 www)).slots.filter Slot.isWaiting).length = 11 ∧
    (ideal home (helo :: List.replicate 12 www)).slots[12]? = some (.answered ["LOG\tTraceback".toList, "FAIL".toList]) := by decide +kernel

example : Plain "www".toList ∧ Plain "10.0.0.1".toList ∧ '\t' ∉ "www.example.com".toList ∧
    "www.example.com".toList = "www".toList ++ '.' :: home.domain ∧
    (∀ x ∈ ["10".toList, "0".toList, "0".toList, "1".toList], '\t' ∉ x ∧ '.' ∉ x) ∧ Spec.Valid Spec.TabFree (.present cnName) := by
  refine ⟨⟨by decide, by decide⟩, ⟨by decide, by decide⟩, by decide, by decide, by decide, .present _ cn_attr⟩

example : PyStr.bytes [0x31] ∈ ([.bytes [0x31]] : List PyStr) := by simp

end Verif.C103
