import Verif.Spec.Merger
/-
Lemmas about the model of the merger.
-/
namespace Verif.Merger
open Verif.Ldap Verif.Server Verif.Client Verif.Spec.Merger

theorem final_iff (r : Obj) : isFinal r = true ↔ Final r := by
  constructor
  · intro h
    cases r <;> simp_all [isFinal]
    rename_i c tag code mdn msg creds
    refine ⟨tag, code, mdn, msg, creds, ?_⟩
    cases c <;> simp_all
  · rintro ⟨_, _, _, _, _, rfl | rfl⟩ <;> rfl

theorem success_iff (r : Obj) : isSuccess r = true ↔ Succeeded r := by
  constructor
  · intro h
    cases r <;> simp [isSuccess] at h
    subst h
    exact ⟨_, _, _, _, _, rfl⟩
  · rintro ⟨_, _, _, _, _, rfl⟩; rfl

theorem lookup_none {β : Type} {l : List (PyVal × β)} {i : PyVal} (h : l.lookup i = none) : ∀ e ∈ l, e.1 ≠ i := by
  induction l with
  | nil => simp
  | cons x t ih =>
    obtain ⟨a, b⟩ := x
    rw [List.lookup_cons] at h
    by_cases hx : i = a
    · subst hx; simp at h
    · rw [beq_false_of_ne hx] at h
      intro e he
      rcases List.mem_cons.mp he with rfl | he
      · exact fun hh => hx hh.symm
      · exact ih h e he

theorem none_lookup {κ β : Type} [BEq κ] [LawfulBEq κ] {l : List (κ × β)} {i : κ} (h : ∀ e ∈ l, e.1 ≠ i) : l.lookup i = none := by
  induction l with
  | nil => rfl
  | cons x t ih =>
    obtain ⟨a, b⟩ := x
    rw [List.lookup_cons]
    have : (i == a) = false := by
      refine beq_false_of_ne fun hh => h (a, b) (List.mem_cons_self ..) hh.symm
    rw [this]
    exact ih fun e he => h e (List.mem_cons_of_mem _ he)

theorem drop_self (m : List (PyVal × Nat × List Obj)) (i : PyVal) : (drop m i).lookup i = none := by
  refine none_lookup fun e he => ?_
  simpa using (List.mem_filter.mp he).2

theorem drop_other (m : List (PyVal × Nat × List Obj)) {i j : PyVal} (h : j ≠ i) : (drop m j).lookup i = m.lookup i := by
  induction m with
  | nil => rfl
  | cons x t ih =>
    obtain ⟨a, b⟩ := x
    unfold drop at ih ⊢
    by_cases ha : a = j
    · subst ha
      have : (i == a) = false := beq_false_of_ne fun hh => h hh.symm
      rw [List.filter_cons_of_neg (by simp), List.lookup_cons, this]
      exact ih
    · rw [List.filter_cons_of_pos (by simpa using ha), List.lookup_cons, List.lookup_cons, ih]

/-- What `write` does not touch. -/
theorem write_rest (s : St) (j : PyVal) (op : Obj) :
    ∃ l, (write s j op).1 = { s with sent := l } ∧ (∀ i, i ≠ j → toClient i l = toClient i s.sent) := by
  unfold write
  split
  · exact ⟨_, rfl, fun i hi => by simp [toClient, Ne.symm hi]⟩
  · exact ⟨s.sent, rfl, fun _ _ => rfl⟩

/-- A response for another message id. -/
theorem queue_other (s : St) {i j : PyVal} (op : Obj) (h : j ≠ i) :
    ∃ m l, (queue s j op).1 = { s with merge := m, sent := l } ∧ m.lookup i = s.merge.lookup i ∧
      toClient i l = toClient i s.sent := by
  unfold queue
  split
  · split
    · obtain ⟨l, hl, hc⟩ := write_rest { s with merge := drop s.merge j } j
        (choose op ((queued s j op).2.take s.clients.length))
      exact ⟨_, l, hl, drop_other _ h, hc i (Ne.symm h)⟩
    · refine ⟨_, s.sent, rfl, ?_, rfl⟩
      rw [List.lookup_cons]
      have : (i == j) = false := beq_false_of_ne fun hh => h hh.symm
      rw [this]
      exact drop_other _ h
  · obtain ⟨l, hl, hc⟩ := write_rest s j op
    exact ⟨s.merge, l, hl, rfl, hc i (Ne.symm h)⟩

theorem forward_facts (id : PyVal) (op : Obj) : ∀ (us : List Up) (next : Int),
    next ≤ (forward id op next us).1 ∧ (forward id op next us).2.length = us.length ∧
    ∀ (k : Nat) (u' : Up), (forward id op next us).2[k]? = some u' → ∃ u : Up, us[k]? = some u ∧ u'.connected = u.connected ∧
      (u'.onwire = u.onwire ∨ ∃ m, next ≤ m ∧ m < (forward id op next us).1 ∧ u'.onwire = u.onwire ++ [(m, id)])
  | [], next => by simp [forward]
  | u :: us, next => by
    have same : ∀ (k : Nat) (u' : Up), (u :: us)[k]? = some u' → ∃ v : Up, (u :: us)[k]? = some v ∧ u'.connected = v.connected ∧
        (u'.onwire = v.onwire ∨ ∃ m, next ≤ m ∧ m < next ∧ u'.onwire = v.onwire ++ [(m, id)]) :=
      fun k u' h => ⟨u', h, rfl, .inl rfl⟩
    obtain ⟨h1, h2, h3⟩ := forward_facts id op us (next + 1)
    unfold forward
    by_cases hc : u.connected = true
    · simp only [hc, Bool.not_true, Bool.false_eq_true, ↓reduceIte]
      cases hn : needsAnswer op with
      | none => exact ⟨Int.le_refl _, rfl, same⟩
      | some b =>
        cases b with
        | true =>
          simp only
          by_cases he : encodes (.int next) op = true
          · simp only [he, ↓reduceIte]
            refine ⟨by omega, by simp [h2], fun k u' hk => ?_⟩
            cases k with
            | zero =>
              simp only [List.getElem?_cons_zero, Option.some.injEq] at hk
              subst hk
              exact ⟨u, rfl, hc.symm, .inr ⟨next, Int.le_refl _, by omega, rfl⟩⟩
            | succ k =>
              obtain ⟨v, hv, hvc, hw⟩ := h3 k u' hk
              refine ⟨v, hv, hvc, ?_⟩
              rcases hw with hw | ⟨m, ha, hb, hw⟩
              · exact .inl hw
              · exact .inr ⟨m, by omega, hb, hw⟩
          · simp only [he, Bool.false_eq_true, ↓reduceIte]
            refine ⟨by omega, rfl, fun k u' hk => ?_⟩
            cases k with
            | zero =>
              simp only [List.getElem?_cons_zero, Option.some.injEq] at hk
              subst hk
              exact ⟨u, rfl, hc.symm, .inr ⟨next, Int.le_refl _, by omega, rfl⟩⟩
            | succ k => exact ⟨u', hk, rfl, .inl rfl⟩
        | false =>
          simp only
          by_cases he : encodes (.int next) op = true
          · simp only [he, ↓reduceIte]
            refine ⟨by omega, by simp [h2], fun k u' hk => ?_⟩
            cases k with
            | zero =>
              simp only [List.getElem?_cons_zero, Option.some.injEq] at hk
              subst hk
              exact ⟨u, rfl, hc.symm, .inl rfl⟩
            | succ k =>
              obtain ⟨v, hv, hvc, hw⟩ := h3 k u' hk
              refine ⟨v, hv, hvc, ?_⟩
              rcases hw with hw | ⟨m, ha, hb, hw⟩
              · exact .inl hw
              · exact .inr ⟨m, by omega, hb, hw⟩
          · simp only [he, Bool.false_eq_true, ↓reduceIte]
            exact ⟨by omega, trivial, fun k u' hk => ⟨u', hk, rfl, .inl rfl⟩⟩
    · simp only [hc, Bool.not_false, ↓reduceIte]
      exact ⟨Int.le_refl _, trivial, same⟩

/-- With all servers connected, a request that needs an answer reaches every one of them. -/
theorem forward_all {id : PyVal} {op : Obj} (hn : needsAnswer op = some true) :
    ∀ (us : List Up) (next : Int), (∀ m : Int, next ≤ m → m < next + us.length → encodes (.int m) op = true) →
      (∀ u ∈ us, u.connected = true) →
      (forward id op next us).1 = next + us.length ∧
      ∀ (k : Nat) (u : Up), us[k]? = some u → (forward id op next us).2[k]? =
        some { u with onwire := u.onwire ++ [(next + k, id)], wrote := u.wrote ++ [(next + k, op)] }
  | [], next, _, _ => by simp [forward]
  | u :: us, next, he, hc => by
    rw [List.length_cons] at he
    obtain ⟨h1, h2⟩ := forward_all hn us (next + 1) (fun m h1 h2 => he m (by omega) (by omega)) fun v hv => hc v (List.mem_cons_of_mem _ hv)
    unfold forward
    have he' : encodes (.int next) op = true := he next (Int.le_refl _) (by omega)
    simp only [hc u (List.mem_cons_self ..), hn, he', Bool.not_true, Bool.false_eq_true, ↓reduceIte]
    refine ⟨by rw [h1, List.length_cons]; omega, fun k v hk => ?_⟩
    cases k with
    | zero =>
      simp only [List.getElem?_cons_zero, Option.some.injEq] at hk
      subst hk
      simp [hc u (List.mem_cons_self ..)]
    | succ k =>
      have := h2 k v hk
      rw [List.getElem?_cons_succ, this]
      have e : next + 1 + (k : Int) = next + ((k + 1 : Nat) : Int) := by omega
      rw [e]

theorem choose_mem : ∀ (q : List Obj) (op : Obj), choose op q = op ∨ choose op q ∈ q
  | [], _ => .inl rfl
  | r :: q, op => by
    show choose (if isSuccess r then r else op) q = op ∨ choose (if isSuccess r then r else op) q ∈ r :: q
    rcases choose_mem q (if isSuccess r then r else op) with h | h
    · rw [h]; split
      · exact .inr (List.mem_cons_self ..)
      · exact .inl rfl
    · exact .inr (List.mem_cons_of_mem _ h)

theorem choose_success : ∀ (q : List Obj) (op : Obj),
    isSuccess (choose op q) = true ↔ isSuccess op = true ∨ ∃ r ∈ q, isSuccess r = true
  | [], op => by simp [choose]
  | r :: q, op => by
    show isSuccess (choose (if isSuccess r then r else op) q) = true ↔ _
    rw [choose_success q]
    by_cases h : isSuccess r = true <;> simp [h]

/-! ### What holds in every history -/

/-- Facts about the state of the merger after any history. -/
structure Sound (s : St) : Prop where
  ups : s.ups ≤ s.servers
  len : s.connected = true → s.clients.length = s.ups
  all : s.allConnected = true → s.connected = true → s.ups = s.servers
  pos : s.allConnected = true → 0 < s.ups
  keys : ∀ u ∈ s.clients, ∀ e ∈ u.onwire, e.1 < s.nextId

theorem sound_clientQueue {s : St} (h : Sound s) (id : PyVal) (op : Obj) : Sound (clientQueue s id op) := by
  obtain ⟨h1, h2, h3⟩ := forward_facts id op s.clients s.nextId
  refine ⟨h.ups, fun hc => ?_, h.all, h.pos, fun u hu e he => ?_⟩
  · show (forward id op s.nextId s.clients).2.length = _
    rw [h2]; exact h.len hc
  · obtain ⟨k, hk⟩ := List.mem_iff_getElem?.mp hu
    obtain ⟨v, hv, _, hw⟩ := h3 k u hk
    show e.1 < (forward id op s.nextId s.clients).1
    have old : ∀ e ∈ v.onwire, e.1 < s.nextId := h.keys v (List.mem_of_getElem? hv)
    rcases hw with hw | ⟨m, ha, hb, hw⟩
    · rw [hw] at he; have := old e he; omega
    · rw [hw] at he
      rcases List.mem_append.mp he with he | he
      · have := old e he; omega
      · simp at he; subst he; exact hb

theorem sound_whenConnected {s : St} (h : Sound s) (id : PyVal) (op : Obj) : Sound (whenConnected s id op) := by
  unfold whenConnected
  split
  · exact sound_clientQueue h id op
  · exact ⟨h.ups, h.len, h.all, h.pos, h.keys⟩

theorem write_shape (s : St) (j : PyVal) (op : Obj) : ∃ l, (write s j op).1 = { s with sent := l } := by
  obtain ⟨l, hl, _⟩ := write_rest s j op
  exact ⟨l, hl⟩

theorem queue_shape (s : St) (j : PyVal) (op : Obj) : ∃ m l, (queue s j op).1 = { s with merge := m, sent := l } := by
  have : ∃ i : PyVal, j ≠ i := by
    cases j with
    | none => exact ⟨.int 0, by simp⟩
    | int z => exact ⟨.none, by simp⟩
    | bytes b => exact ⟨.none, by simp⟩
  obtain ⟨i, hi⟩ := this
  obtain ⟨m, l, h, _⟩ := queue_other s op hi
  exact ⟨m, l, h⟩

theorem sound_queue {s : St} (h : Sound s) (j : PyVal) (op : Obj) : Sound (queue s j op).1 := by
  obtain ⟨m, l, e⟩ := queue_shape s j op
  rw [e]
  exact ⟨h.ups, h.len, h.all, h.pos, h.keys⟩

theorem sound_setUp {s : St} (h : Sound s) {k : Nat} {u u' : Up} (hk : s.clients[k]? = some u)
    (hs : ∀ e ∈ u'.onwire, e ∈ u.onwire) : Sound (setUp s k u') := by
  refine ⟨h.ups, fun hc => ?_, h.all, h.pos, fun v hv e he => ?_⟩
  · show (s.clients.set k u').length = _
    rw [List.length_set]; exact h.len hc
  · rcases List.mem_or_eq_of_mem_set hv with hv | rfl
    · exact h.keys v hv e he
    · exact h.keys u (List.mem_of_getElem? hk) e (hs e he)

theorem sound_foldl : ∀ (l : List (PyVal × Obj)) (s : St), Sound s → Sound (l.foldl (fun s w => clientQueue s w.1 w.2) s)
  | [], _, h => h
  | w :: l, s, h => sound_foldl l _ (sound_clientQueue h w.1 w.2)

theorem sound_serverUp {s : St} (h : Sound s) (hu : s.ups < s.servers) : Sound (serverUp s) := by
  have hlen : s.connected = true → (s.clients ++ [(⟨true, [], []⟩ : Up)]).length = s.ups + 1 := fun hc => by
    rw [List.length_append, h.len hc]; rfl
  have key : ∀ w b, (b = true → s.connected = true → s.ups + 1 = s.servers) →
      Sound { s with ups := s.ups + 1, clients := s.clients ++ [⟨true, [], []⟩], waiting := w, allConnected := b } := by
    intro w b hb
    refine ⟨hu, hlen, hb, fun _ => Nat.succ_pos _, fun u hm e he => ?_⟩
    rcases List.mem_append.mp hm with hm | hm
    · exact h.keys u hm e he
    · simp at hm; subst hm; simp at he
  have all : (s.allConnected || decide ((s.clients ++ [(⟨true, [], []⟩ : Up)]).length = s.servers)) = true →
      s.connected = true → s.ups + 1 = s.servers := fun ha hc => by
    rcases Bool.or_eq_true_iff.mp ha with ha | ha
    · have := h.all ha hc; omega
    · have := of_decide_eq_true ha
      rw [hlen hc] at this
      exact this
  unfold serverUp
  simp only
  split
  · exact sound_foldl _ _ (key [] _ all)
  · exact key s.waiting _ all

theorem sound_step {s : St} (h : Sound s) (e : Event) : Sound (step s e) := by
  cases e with
  | serverUp =>
    show Sound (if s.ups < s.servers then Verif.Merger.serverUp s else s)
    split
    · exact sound_serverUp h (by assumption)
    · exact h
  | serverLost k =>
    show Sound (serverLost s k)
    unfold serverLost
    split
    · exact h
    · rename_i u hk
      exact sound_setUp h hk (by simp)
  | request id op =>
    show Sound (if s.connected && isRequest op && id ≠ .int 0 then receive s id op else s)
    split
    · unfold receive
      split
      · exact sound_queue h _ _
      · exact sound_queue h _ _
      · exact sound_queue h _ _
      · exact sound_queue h _ _
      · exact sound_queue h _ _
      · exact sound_whenConnected (s := { s with unbound := true }) ⟨h.ups, h.len, h.all, h.pos, h.keys⟩ _ _
      · exact sound_whenConnected h _ _
    · exact h
  | response k mid op =>
    show Sound (response s k mid op)
    unfold response
    split
    · exact h
    · rename_i u hk
      split
      · split
        · exact h
        · rename_i id _
          simp only
          split
          · obtain ⟨m, l, e⟩ := queue_shape s id op
            refine sound_setUp (sound_queue h id op) (u := u) ?_ fun e he => (List.mem_filter.mp he).1
            rw [e]; exact hk
          · exact sound_queue h id op
      · exact h
  | lost => exact ⟨h.ups, fun hc => by simp [step] at hc, fun _ hc => by simp [step] at hc, h.pos, by simp [step]⟩

theorem sound_run (n : Nat) (h : List Event) : Sound (run (start n) h) := by
  have : ∀ (h : List Event) (s : St), Sound s → Sound (run s h) := by
    intro h
    induction h with
    | nil => exact fun _ hs => hs
    | cons e h ih => exact fun s hs => ih _ (sound_step hs e)
  exact this h _ ⟨Nat.zero_le _, fun _ => rfl, fun ha => by simp [start] at ha, fun ha => by simp [start] at ha, by simp [start]⟩

end Verif.Merger
