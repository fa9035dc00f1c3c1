import Verif.Spec.PdnsPipe
/-
The queue of the PowerDNS backend shows what the slots of the specification say.
-/
namespace Verif.PdnsPipe
open Verif.Spec.Pdns

/-- The queue as it would be if nothing had been sent. -/
def items : Nat → List Slot → List Item
  | _, [] => []
  | k, .waiting q :: s => .pending k (.waiting q) :: items (k + 1) s
  | k, .searching q :: s => .pending k (.searching q) :: items (k + 1) s
  | k, .answered l :: s => .done l :: items (k + 1) s

def tail (ended : Bool) : List Item := if ended then [.exit] else []

theorem items_append (k : Nat) (a b : List Slot) : items k (a ++ b) = items k a ++ items (k + a.length) b := by
  induction a generalizing k with
  | nil => simp [items]
  | cons x a ih => cases x <;> simp [items, ih, Nat.add_assoc, Nat.add_comm 1]

/-- Nothing can be sent. -/
def Blocked (w : List Item) : Prop := workOff w = ([], w, false)

theorem blocked_rest (w : List Item) : Blocked (workOff w).2.1 := by
  induction w with
  | nil => rfl
  | cons x w ih => cases x <;> first | rfl | exact ih

theorem blocked_cases {w : List Item} (h : Blocked w) : w = [] ∨ ∃ i s v, w = .pending i s :: v := by
  match w with
  | [] => exact .inl rfl
  | .pending i s :: v => exact .inr ⟨i, s, v, rfl⟩
  | .exit :: v => simp [Blocked, workOff] at h
  | .done l :: v =>
    exfalso
    have hl : ∀ u : List Item, (workOff u).2.1.length ≤ u.length := by
      intro u
      induction u with
      | nil => simp [workOff]
      | cons x u ih => cases x <;> simp [workOff] <;> omega
    have := hl v
    simp only [Blocked, workOff, Prod.mk.injEq] at h
    rw [h.2] at this
    simp only [List.length_cons] at this
    omega

theorem blocked_put {w : List Item} (h : Blocked w) (id : Nat) (s : Stage) : Blocked (put id (.pending id s) w) := by
  rcases blocked_cases h with rfl | ⟨i, t, v, rfl⟩
  · exact h
  · unfold put; split <;> rfl

theorem blocked_append {w : List Item} (h : Blocked w) (id : Nat) (s : Stage) : Blocked (w ++ [.pending id s]) := by
  rcases blocked_cases h with rfl | ⟨i, t, v, rfl⟩ <;> rfl

theorem workOff_append (w v : List Item) : workOff (w ++ v) = ((workOff w).1 ++ (workOff ((workOff w).2.1 ++ v)).1,
    (workOff ((workOff w).2.1 ++ v)).2.1, (workOff w).2.2 || (workOff ((workOff w).2.1 ++ v)).2.2) := by
  induction w with
  | nil => simp [workOff]
  | cons x w ih => cases x <;> simp [workOff, ih]

theorem workOff_put (id : Nat) (x : Item) (w : List Item) : workOff (put id x w) = ((workOff w).1 ++ (workOff (put id x (workOff w).2.1)).1,
    (workOff (put id x (workOff w).2.1)).2.1, (workOff w).2.2 || (workOff (put id x (workOff w).2.1)).2.2) := by
  induction w with
  | nil => simp [workOff, put]
  | cons y w ih => cases y <;> simp [workOff, put, ih]

theorem stage_rest (id : Nat) (w : List Item) : stage id (workOff w).2.1 = stage id w := by
  induction w with
  | nil => rfl
  | cons y w ih => cases y <;> simp [workOff, stage, ih]

theorem stage_skip (k : Nat) (pre : List Slot) (id : Nat) (h : k + pre.length ≤ id) (v : List Item) :
    stage id (items k pre ++ v) = stage id v := by
  induction pre generalizing k with
  | nil => rfl
  | cons x pre ih =>
    simp only [List.length_cons] at h
    have hk : k ≠ id := by omega
    cases x <;> simp [items, stage, hk, ih (k + 1) (by omega)]

theorem put_skip (k : Nat) (pre : List Slot) (id : Nat) (h : k + pre.length ≤ id) (y : Item) (v : List Item) :
    put id y (items k pre ++ v) = items k pre ++ put id y v := by
  induction pre generalizing k with
  | nil => rfl
  | cons x pre ih =>
    simp only [List.length_cons] at h
    have hk : k ≠ id := by omega
    cases x <;> simp [items, put, hk, ih (k + 1) (by omega)]

/-- What a slot waits for. -/
def stageOf : Slot → Option Stage
  | .waiting q => some (.waiting q)
  | .searching q => some (.searching q)
  | .answered _ => none

theorem stage_none (k id : Nat) (h : id < k) (s : List Slot) (e : Bool) : stage id (items k s ++ tail e) = none := by
  induction s generalizing k with
  | nil => cases e <;> rfl
  | cons x s ih =>
    have hk : k ≠ id := by omega
    cases x <;> simp [items, stage, hk, ih (k + 1) (by omega)]

theorem stage_items (k id : Nat) (h : k ≤ id) (s : List Slot) (e : Bool) :
    stage id (items k s ++ tail e) = (s[id - k]?).bind stageOf := by
  induction s generalizing k with
  | nil => cases e <;> rfl
  | cons x s ih =>
    rcases Nat.eq_or_lt_of_le h with rfl | hlt
    · cases x <;> simp [items, stage, stageOf, stage_none]
    · have hk : k ≠ id := by omega
      have e1 : id - k = (id - (k + 1)) + 1 := by omega
      rw [e1, List.getElem?_cons_succ, ← ih (k + 1) hlt]
      cases x <;> simp [items, stage, hk]

/-- The queue, what was sent and whether the program stops, as the slots say. -/
def Core (s : St) (slots : List Slot) : Prop := (s.out, s.work, s.stopped) = workOff (items 0 slots ++ tail s.ended)

theorem Core.blocked {s : St} {slots : List Slot} (h : Core s slots) : Blocked s.work := by
  have : s.work = (workOff (items 0 slots ++ tail s.ended)).2.1 := congrArg (fun p => p.2.1) h
  rw [this]; exact blocked_rest _

theorem Core.stage {s : St} {slots : List Slot} (h : Core s slots) (id : Nat) : stage id s.work = (slots[id]?).bind stageOf := by
  have : s.work = (workOff (items 0 slots ++ tail s.ended)).2.1 := congrArg (fun p => p.2.1) h
  rw [this, stage_rest, stage_items 0 id (Nat.zero_le _)]; rfl

/-- A cell changes and the queue is worked off. -/
theorem Core.put {s : St} {pre post : List Slot} {a b : Slot} (h : Core s (pre ++ a :: post)) (ha : a.isAnswered = false) {y : Item}
    (hy : items pre.length (b :: post) = y :: items (pre.length + 1) post) :
    Core (doWork { s with work := put pre.length y s.work }) (pre ++ b :: post) := by
  have e : items 0 (pre ++ b :: post) ++ tail s.ended = PdnsPipe.put pre.length y (items 0 (pre ++ a :: post) ++ tail s.ended) := by
    rw [items_append, items_append, List.append_assoc, List.append_assoc, put_skip 0 pre _ (by omega), Nat.zero_add, hy]
    cases a <;> first | (simp [items, PdnsPipe.put]; done) | simp [Slot.isAnswered] at ha
  have h1 : s.out = (workOff (items 0 (pre ++ a :: post) ++ tail s.ended)).1 := congrArg Prod.fst h
  have h2 : s.work = (workOff (items 0 (pre ++ a :: post) ++ tail s.ended)).2.1 := congrArg (fun p => p.2.1) h
  have h3 : s.stopped = (workOff (items 0 (pre ++ a :: post) ++ tail s.ended)).2.2 := congrArg (fun p => p.2.2) h
  unfold Core
  simp only [doWork]
  rw [e, workOff_put _ _ (items 0 (pre ++ a :: post) ++ tail s.ended), ← h1, ← h2, ← h3]

theorem doWork_blocked {s : St} (h : Blocked s.work) : doWork s = s := by
  unfold doWork
  rw [show workOff s.work = ([], s.work, false) from h]
  simp

theorem core_complete {s : St} {pre post : List Slot} {a : Slot} (h : Core s (pre ++ a :: post)) (ha : a.isAnswered = false)
    (lines : List Str) : Core (complete pre.length lines s) (pre ++ .answered lines :: post) :=
  Core.put h ha rfl

theorem core_search (cfg : Config) {s : St} {pre post : List Slot} {a : Slot} (h : Core s (pre ++ a :: post)) (ha : a.isAnswered = false)
    (q : Question) : Core (search cfg pre.length q s) (pre ++ looked cfg q :: post) := by
  unfold search looked
  cases FilterText.parseFilter q.filter with
  | error e => exact core_complete h ha _
  | ok f =>
    have := Core.put (b := .searching q) h ha rfl
    rw [doWork_blocked] at this
    · exact this
    · exact blocked_put h.blocked _ _

/-- The other attributes. -/
def Same (s t : St) : Prop := s.main = t.main ∧ s.entry = t.entry ∧ s.fetching = t.fetching ∧ s.waiting = t.waiting ∧
  s.next = t.next ∧ s.ended = t.ended

theorem same_complete (id : Nat) (l : List Str) (s : St) : Same (complete id l s) s := ⟨rfl, rfl, rfl, rfl, rfl, rfl⟩

theorem same_search (cfg : Config) (id : Nat) (q : Question) (s : St) : Same (search cfg id q s) s := by
  unfold search
  split <;> exact ⟨rfl, rfl, rfl, rfl, rfl, rfl⟩

theorem Same.trans {a b c : St} (h : Same a b) (h' : Same b c) : Same a c :=
  ⟨h.1.trans h'.1, h.2.1.trans h'.2.1, h.2.2.1.trans h'.2.2.1, h.2.2.2.1.trans h'.2.2.2.1, h.2.2.2.2.1.trans h'.2.2.2.2.1,
    h.2.2.2.2.2.trans h'.2.2.2.2.2⟩

/-- The numbers of the lines that wait for the entry. -/
def waitIds : Nat → List Slot → List Nat
  | _, [] => []
  | k, .waiting _ :: s => k :: waitIds (k + 1) s
  | k, _ :: s => waitIds (k + 1) s

theorem waitIds_append (k : Nat) (a b : List Slot) : waitIds k (a ++ b) = waitIds k a ++ waitIds (k + a.length) b := by
  induction a generalizing k with
  | nil => simp [waitIds]
  | cons x a ih => cases x <;> simp [waitIds, ih, Nat.add_assoc, Nat.add_comm 1]

theorem waitIds_length (k : Nat) (s : List Slot) : (waitIds k s).length = (s.filter Slot.isWaiting).length := by
  induction s generalizing k with
  | nil => rfl
  | cons x s ih => cases x <;> simp [waitIds, Slot.isWaiting, List.filter_cons, ih]

/-- A function that treats one waiting Deferred as `g` treats its slot. -/
theorem fold_waiting (f : St → Option Nat → St) (g : Slot → Slot)
    (hf : ∀ s pre q post, Core s (pre ++ .waiting q :: post) →
      Core (f s (some pre.length)) (pre ++ g (.waiting q) :: post) ∧ Same (f s (some pre.length)) s)
    (hs : ∀ q, g (.searching q) = .searching q) (ha : ∀ l, g (.answered l) = .answered l)
    (rest pre : List Slot) (s : St) (h : Core s (pre ++ rest)) :
    Core (((waitIds pre.length rest).map some).foldl f s) (pre ++ rest.map g) ∧
      Same (((waitIds pre.length rest).map some).foldl f s) s := by
  induction rest generalizing pre s with
  | nil => exact ⟨h, rfl, rfl, rfl, rfl, rfl, rfl⟩
  | cons x rest ih =>
    have key : ∀ (y : Slot) (s : St), Core s (pre ++ y :: rest) →
        Core (((waitIds (pre.length + 1) rest).map some).foldl f s) (pre ++ y :: rest.map g) ∧
        Same (((waitIds (pre.length + 1) rest).map some).foldl f s) s := by
      intro y s h
      have := ih (pre ++ [y]) s (by simpa using h)
      simpa using this
    cases x with
    | waiting q =>
      have h1 := hf s pre q rest h
      have h2 := key (g (.waiting q)) _ h1.1
      exact ⟨h2.1, h2.2.trans h1.2⟩
    | searching q => have := key _ s h; simpa [waitIds, hs] using this
    | answered l => have := key _ s h; simpa [waitIds, ha] using this

/-- The state of the program and the state of the specification. -/
structure Inv (s : St) (i : Ideal) : Prop where
  core : Core s i.slots
  main : s.main = i.main
  entry : s.entry = i.entry
  fetching : s.fetching = i.fetching
  ended : s.ended = i.ended
  next : s.next = i.slots.length
  waiting : s.waiting = (if i.stuck then [none] else []) ++ (waitIds 0 i.slots).map some
  idle : i.fetching = false → s.waiting = [] ∧ i.stuck = false

theorem Inv.load {s : St} {i : Ideal} (h : Inv s i) : s.waiting.length = load i := by
  rw [h.waiting]
  unfold Spec.Pdns.load
  cases i.stuck <;> simp [waitIds_length]

theorem core_append {s : St} {slots : List Slot} (h : Core s slots) (he : s.ended = false) (x : Slot) (y : Item)
    (hy : items slots.length [x] = [y]) (s' : St) (ho : s'.out = s.out) (hw : s'.work = s.work ++ [y]) (hs : s'.stopped = s.stopped)
    (he' : s'.ended = false) : Core (doWork s') (slots ++ [x]) := by
  have e : items 0 (slots ++ [x]) ++ tail false = items 0 slots ++ tail false ++ [y] := by
    rw [items_append, Nat.zero_add, hy]; simp [tail]
  rw [Core, he] at h
  have h1 : s.out = (workOff (items 0 slots ++ tail false)).1 := congrArg Prod.fst h
  have h2 : s.work = (workOff (items 0 slots ++ tail false)).2.1 := congrArg (fun p => p.2.1) h
  have h3 : s.stopped = (workOff (items 0 slots ++ tail false)).2.2 := congrArg (fun p => p.2.2) h
  unfold Core
  simp only [doWork]
  rw [he', e, workOff_append (items 0 slots ++ tail false), ← h1, ← h2, ← h3, ho, hw, hs]

/-- A cell with a Deferred is appended. -/
theorem core_pending {s : St} {slots : List Slot} (h : Core s slots) (he : s.ended = false) (q : Question) (s' : St) (ho : s'.out = s.out)
    (hw : s'.work = s.work ++ [.pending slots.length (.waiting q)]) (hs : s'.stopped = s.stopped) (he' : s'.ended = false) :
    Core s' (slots ++ [.waiting q]) := by
  have := core_append h he (.waiting q) (.pending slots.length (.waiting q)) rfl s' ho hw hs he'
  rwa [doWork_blocked] at this
  rw [hw]
  exact blocked_append h.blocked _ _

theorem waiting_new (slots : List Slot) (x : Slot) (hx : x.isWaiting = false) :
    waitIds 0 (slots ++ [x]) = waitIds 0 slots := by
  rw [waitIds_append]
  cases x <;> simp_all [waitIds, Slot.isWaiting]

theorem waitIds_map (k : Nat) (slots : List Slot) (g : Slot → Slot) (hw : ∀ q, (g (.waiting q)).isWaiting = false)
    (hs : ∀ q, g (.searching q) = .searching q) (ha : ∀ l, g (.answered l) = .answered l) : waitIds k (slots.map g) = [] := by
  induction slots generalizing k with
  | nil => rfl
  | cons x slots ih =>
    cases x with
    | waiting q =>
      have := hw q
      simp only [List.map_cons]
      cases hg : g (.waiting q) <;> simp_all [waitIds, Slot.isWaiting]
    | searching q => simp [waitIds, hs, ih]
    | answered l => simp [waitIds, ha, ih]

theorem looked_not_waiting (cfg : Config) (q : Question) : (looked cfg q).isWaiting = false := by
  unfold looked; split <;> rfl

theorem inv_enter (cfg : Config) {s : St} {i : Ideal} (h : Inv s i) (he : i.ended = false) (q : Question) (raises : Option (List Str)) :
    Inv (ask cfg q raises s) (enter cfg i q raises) := by
  have he' : s.ended = false := h.ended.trans he
  unfold ask enter
  rw [h.entry, h.load, h.fetching]
  split
  · -- the entry is known
    have h1 := core_pending h.core he' q (append (.pending s.next (.waiting q)) s) rfl (by rw [← h.next]; rfl) rfl he'
    have h2 := core_search cfg (post := []) h1 rfl q
    rw [← h.next] at h2
    obtain ⟨m, e, f, w, n, d⟩ := same_search cfg s.next q (append (.pending s.next (.waiting q)) s)
    refine ⟨h2, m.trans h.main, e.trans h.entry, f.trans h.fetching, d.trans h.ended, ?_, ?_, ?_⟩
    · rw [n]; simp [append, h.next]
    · rw [w]
      refine h.waiting.trans ?_
      simp only [waiting_new i.slots _ (looked_not_waiting cfg q)]
    · rw [w]; exact h.idle
  · split
    · refine ⟨core_append h.core he' _ _ rfl _ rfl rfl rfl he', h.main, h.entry, h.fetching, h.ended, ?_, ?_, h.idle⟩
      · simp [append, doWork, h.next]
      · refine h.waiting.trans ?_
        simp only [waiting_new i.slots (.answered _) rfl]
    · split
      · rename_i hf
        refine ⟨core_pending h.core he' q _ rfl (by rw [← h.next]; rfl) rfl he', h.main, rfl, rfl, h.ended, ?_, ?_, ?_⟩
        · simp [append, h.next]
        · simp [append, h.waiting, waitIds_append, waitIds, h.next]
        · intro hf'; simp [hf] at hf'
      · rename_i hf
        have hidle := h.idle (by simpa using hf)
        cases raises with
        | none =>
          refine ⟨core_pending h.core he' q _ rfl (by rw [← h.next]; rfl) rfl he', h.main, rfl, rfl, h.ended, ?_, ?_, ?_⟩
          · simp [append, h.next]
          · simp [append, h.waiting, waitIds_append, waitIds, h.next]
          · nofun
        | some t =>
          refine ⟨core_append h.core he' _ _ rfl _ rfl rfl rfl he', h.main, rfl, rfl, h.ended, ?_, ?_, ?_⟩
          · simp [append, doWork, h.next]
          · have hw := h.waiting
            rw [hidle.1, hidle.2] at hw
            have hn : waitIds 0 i.slots = [] := by simpa using hw.symm
            simp [append, doWork, hidle.1, waiting_new i.slots (.answered (failLines t)) rfl, hn]
          · nofun

theorem found_slot {slots : List Slot} {id : Nat} {a : Slot} (h : slots[id]? = some a) :
    ∃ pre post, slots = pre ++ a :: post ∧ pre.length = id := by
  obtain ⟨hlt, rfl⟩ := List.getElem?_eq_some_iff.1 h
  refine ⟨slots.take id, slots.drop (id + 1), ?_, by simp; omega⟩
  rw [List.getElem_cons_drop, List.take_append_drop]

theorem waitIds_none {k : Nat} {slots : List Slot} : none ∉ (waitIds k slots).map some := by simp

theorem inv_step (cfg : Config) {s : St} {i : Ideal} (h : Inv s i) (e : Event) : Inv (PdnsPipe.step cfg s e) (tick cfg i e) := by
  cases e with
  | line text raises =>
    unfold PdnsPipe.step tick
    simp only [h.main]
    by_cases he : i.ended = true
    · rw [if_pos (h.ended.trans he), if_pos he]; exact h
    · have he' : ¬ s.ended = true := by rw [h.ended]; exact he
      rw [if_neg he', if_neg he]
      replace he : i.ended = false := by simpa using he
      replace he' : s.ended = false := by simpa using he'
      generalize hear cfg i.main text = p
      obtain ⟨m, r⟩ := p
      cases r with
      | now lines =>
        refine ⟨core_append h.core he' _ _ rfl _ rfl rfl rfl he', rfl, h.entry, h.fetching, h.ended, ?_, ?_, h.idle⟩
        · simp [append, doWork, h.next]
        · refine h.waiting.trans ?_
          simp only [waiting_new i.slots (.answered _) rfl]
      | ask q =>
        exact inv_enter cfg (s := { s with main := m }) (i := { i with main := m })
          ⟨h.core, rfl, h.entry, h.fetching, h.ended, h.next, h.waiting, h.idle⟩ he q raises
  | fetched fails =>
    unfold PdnsPipe.step tick
    have hc : (s.fetching && !s.waiting.contains none) = true ↔ (i.fetching = true ∧ ¬ i.stuck = true) := by
      rw [h.fetching, h.waiting]
      cases i.fetching <;> cases i.stuck <;> simp
    by_cases hs : i.fetching = true ∧ ¬ i.stuck = true
    · simp only [hc.2 hs, if_pos hs, if_true]
      have hst : i.stuck = false := by simpa using hs.2
      have hw : s.waiting = (waitIds 0 i.slots).map some := by rw [h.waiting, hst]; simp
      cases fails with
      | none =>
        have key := fold_waiting (call cfg) (goOn cfg) (by
          intro s pre q post hcore
          have hq : stage pre.length s.work = some (.waiting q) := by rw [hcore.stage]; simp [stageOf]
          simp only [call, hq]
          exact ⟨core_search cfg hcore rfl q, same_search cfg _ _ _⟩) (fun _ => rfl) (fun _ => rfl) i.slots []
          { s with fetching := false, entry := true, waiting := [] } h.core
        simp only [hw]
        obtain ⟨k1, m, e, f, w, n, d⟩ := key
        refine ⟨k1, m.trans h.main, e, f, d.trans h.ended, ?_, ?_, fun _ => ⟨w, hst⟩⟩
        · exact n.trans (h.next.trans (by simp))
        · refine w.trans ?_
          simp [hst, waitIds_map 0 i.slots (goOn cfg) (looked_not_waiting cfg) (fun _ => rfl) (fun _ => rfl)]
      | some t =>
        have key := fold_waiting (errback t) (giveUp t) (by
          intro s pre q post hcore
          have hq : stage pre.length s.work = some (.waiting q) := by rw [hcore.stage]; simp [stageOf]
          simp only [errback, hq]
          exact ⟨core_complete hcore rfl _, same_complete _ _ _⟩) (fun _ => rfl) (fun _ => rfl) i.slots []
          { s with fetching := false, waiting := [] } h.core
        simp only [hw]
        obtain ⟨k1, m, e, f, w, n, d⟩ := key
        refine ⟨k1, m.trans h.main, e.trans h.entry, f, d.trans h.ended, ?_, ?_, fun _ => ⟨w, hst⟩⟩
        · exact n.trans (h.next.trans (by simp))
        · refine w.trans ?_
          simp [hst, waitIds_map 0 i.slots (giveUp t) (fun _ => rfl) (fun _ => rfl) (fun _ => rfl)]
    · have hs' : ¬ (s.fetching && !s.waiting.contains none) = true := fun x => hs (hc.1 x)
      simp only [if_neg hs, if_neg hs']
      exact h
  | found id r =>
    unfold PdnsPipe.step tick
    simp only [h.core.stage]
    cases hx : i.slots[id]? with
    | none => exact h
    | some x =>
      cases x with
      | waiting q => exact h
      | answered l => exact h
      | searching q =>
        obtain ⟨pre, post, hsl, hid⟩ := found_slot hx
        have hcore := h.core
        rw [hsl] at hcore
        have h1 := core_complete hcore rfl (finish cfg q r)
        rw [hid] at h1
        have hset : i.slots.set id (.answered (finish cfg q r)) = pre ++ .answered (finish cfg q r) :: post := by
          rw [hsl, ← hid]; simp
        refine ⟨?_, h.main, h.entry, h.fetching, h.ended, ?_, ?_, h.idle⟩
        · show Core _ (i.slots.set id _)
          rw [hset]; exact h1
        · exact h.next.trans (by simp)
        · show s.waiting = _ ++ (waitIds 0 (i.slots.set id _)).map some
          rw [hset, h.waiting, hsl, waitIds_append, waitIds_append]
          rfl
  | lost => exact ⟨h.core, h.main, rfl, h.fetching, h.ended, h.next, h.waiting, h.idle⟩
  | eof =>
    unfold PdnsPipe.step tick
    cases he : i.ended with
    | true =>
      simp only [h.ended, he, if_true]
      exact ⟨h.core, h.main, h.entry, h.fetching, h.ended.trans he, h.next, h.waiting, h.idle⟩
    | false =>
      simp only [h.ended, he, Bool.false_eq_true, if_false]
      refine ⟨?_, h.main, h.entry, h.fetching, rfl, h.next, h.waiting, h.idle⟩
      have hcore := h.core
      rw [Core, h.ended, he] at hcore
      have h1 : s.out = (workOff (items 0 i.slots ++ tail false)).1 := congrArg Prod.fst hcore
      have h2 : s.work = (workOff (items 0 i.slots ++ tail false)).2.1 := congrArg (fun p => p.2.1) hcore
      have h3 : s.stopped = (workOff (items 0 i.slots ++ tail false)).2.2 := congrArg (fun p => p.2.2) hcore
      have e : items 0 i.slots ++ tail true = items 0 i.slots ++ tail false ++ [.exit] := by simp [tail]
      unfold Core
      simp only [doWork]
      rw [e, workOff_append (items 0 i.slots ++ tail false), ← h1, ← h2, ← h3]

theorem inv_run (cfg : Config) (events : List Event) : Inv (run cfg events) (ideal cfg events) := by
  have key : ∀ (es : List Event) s i, Inv s i → Inv (es.foldl (PdnsPipe.step cfg) s) (es.foldl (tick cfg) i) := by
    intro es
    induction es with
    | nil => exact fun _ _ h => h
    | cons e es ih => exact fun s i h => ih _ _ (inv_step cfg h e)
  exact key events _ _ ⟨rfl, rfl, rfl, rfl, rfl, rfl, rfl, fun _ => ⟨rfl, rfl⟩⟩

theorem workOff_items (k : Nat) (slots : List Slot) (e : Bool) : (workOff (items k slots ++ tail e)).1 = sent slots ∧
    (workOff (items k slots ++ tail e)).2.2 = (e && slots.all Slot.isAnswered) := by
  induction slots generalizing k with
  | nil => cases e <;> exact ⟨rfl, rfl⟩
  | cons x slots ih =>
    cases x with
    | waiting q => cases e <;> simp [items, workOff, sent, Slot.isAnswered]
    | searching q => cases e <;> simp [items, workOff, sent, Slot.isAnswered]
    | answered l => simp [items, workOff, sent, Slot.isAnswered, (ih (k + 1)).1, (ih (k + 1)).2]

end Verif.PdnsPipe
