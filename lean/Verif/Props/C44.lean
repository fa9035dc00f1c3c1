import Verif.Lemmas.Merger
import Verif.Lemmas.Lookup
/-
C44: the merger sends one final answer, successful iff some server succeeded.
-/
namespace Verif.C44
open Verif.Ldap Verif.Merger Verif.Spec.Merger
open Verif.Server (encodes)
open Verif.Client (isResponse needsAnswer)

/-- The last responses among the answers, with the servers they came from. -/
def fin (mid : Nat → Int) (n : Nat) (h : List Event) : List (Nat × Obj) := (answers mid n h).filter fun a => isFinal a.2

/-- The other answers. -/
def non (mid : Nat → Int) (n : Nat) (h : List Event) : List Obj :=
  ((answers mid n h).filter fun a => !isFinal a.2).map (·.2)

/-- What the merger makes of the last responses. -/
def pick (l : List Obj) : Obj := choose (l.getLastD default) l

theorem answers_snoc (mid : Nat → Int) (n : Nat) (h : List Event) (e : Event) :
    answers mid n (h ++ [e]) = answers mid n h ++ answers mid n [e] := by
  unfold answers; exact List.filterMap_append

/-- The state of the merger after the request and the history `h`. -/
structure Inv (i : PyVal) (mid : Nat → Int) (n : Nat) (before : List Obj) (h : List Event) (s : St) : Prop where
  conn : s.connected = true
  len : s.clients.length = n
  full : s.servers ≤ s.ups
  next : ∀ k, k < n → mid k < s.nextId
  nodup : ((fin mid n h).map (·.1)).Nodup
  range : ∀ k ∈ (fin mid n h).map (·.1), k < n
  only : ∀ (k : Nat) (u : Up), s.clients[k]? = some u → ∀ e ∈ u.onwire, e.2 = i ↔ e.1 = mid k
  there : ∀ (k : Nat) (u : Up), s.clients[k]? = some u → .serverLost k ∉ h → k ∉ (fin mid n h).map (·.1) →
    u.connected = true ∧ ∃ e ∈ u.onwire, e.1 = mid k
  gone : ∀ (k : Nat) (u : Up), s.clients[k]? = some u → k ∈ (fin mid n h).map (·.1) → ∀ e ∈ u.onwire, e.1 ≠ mid k
  merge : s.merge.lookup i =
    if fin mid n h = [] ∨ (fin mid n h).length = n then none else some (n, (fin mid n h).map (·.2))
  sent : toClient i s.sent =
    before ++ non mid n h ++ if (fin mid n h).length = n then [pick ((fin mid n h).map (·.2))] else []

section
variable {i : PyVal} {mid : Nat → Int} {n : Nat} {before : List Obj} {h : List Event} {s : St}

/-- An event that is no answer and loses nothing. -/
theorem Inv.other (hI : Inv i mid n before h s) {e : Event} (hans : answers mid n [e] = []) {s' : St}
    (hconn : s'.connected = true) (hlen : s'.clients.length = n) (hfull : s'.servers ≤ s'.ups) (hnext : s.nextId ≤ s'.nextId)
    (hcl : ∀ (k : Nat) (u' : Up), s'.clients[k]? = some u' → ∃ u : Up, s.clients[k]? = some u ∧
      (.serverLost k ≠ e → u'.connected = u.connected) ∧
      (∀ x ∈ u'.onwire, x ∈ u.onwire ∨ (x.2 ≠ i ∧ s.nextId ≤ x.1)) ∧
      (.serverLost k ≠ e → ∀ x ∈ u.onwire, x.2 = i → x ∈ u'.onwire))
    (hm : s'.merge.lookup i = s.merge.lookup i) (hs : toClient i s'.sent = toClient i s.sent) :
    Inv i mid n before (h ++ [e]) s' := by
  have hans' : answers mid n (h ++ [e]) = answers mid n h := by rw [answers_snoc, hans, List.append_nil]
  have hfin : fin mid n (h ++ [e]) = fin mid n h := by unfold fin; rw [hans']
  have hnon : non mid n (h ++ [e]) = non mid n h := by unfold non; rw [hans']
  refine ⟨hconn, hlen, hfull, fun k hk => Int.lt_of_lt_of_le (hI.next k hk) hnext, ?_, ?_, ?_, ?_, ?_, ?_, ?_⟩
  · rw [hfin]; exact hI.nodup
  · rw [hfin]; exact hI.range
  · intro k u' hk x hx
    obtain ⟨u, hu, _, hold, _⟩ := hcl k u' hk
    rcases hold x hx with hx | ⟨hx, hx'⟩
    · exact hI.only k u hu x hx
    · refine ⟨fun hh => absurd hh hx, fun hh => ?_⟩
      have hkn : k < n := by
        have := (List.getElem?_eq_some_iff.mp hu).1
        rw [hI.len] at this; exact this
      have := hI.next k hkn
      omega
  · intro k u' hk hl hf
    rw [hfin] at hf
    obtain ⟨u, hu, hc, _, hnew⟩ := hcl k u' hk
    have hl' : Event.serverLost k ∉ h := fun hh => hl (List.mem_append_left _ hh)
    have hle : Event.serverLost k ≠ e := fun hh => hl (List.mem_append_right _ (by simp [hh]))
    obtain ⟨hcc, x, hx, hxk⟩ := hI.there k u hu hl' hf
    exact ⟨by rw [hc hle]; exact hcc, x, hnew hle x hx ((hI.only k u hu x hx).mpr hxk), hxk⟩
  · intro k u' hk hf x hx
    rw [hfin] at hf
    obtain ⟨u, hu, _, hold, _⟩ := hcl k u' hk
    rcases hold x hx with hx | ⟨_, hx'⟩
    · exact hI.gone k u hu hf x hx
    · have := hI.next k (hI.range k hf)
      omega
  · rw [hfin, hm]; exact hI.merge
  · rw [hfin, hnon, hs]; exact hI.sent

theorem lookup_mem {l : List (Int × PyVal)} {m : Int} {j : PyVal} (h : l.lookup m = some j) : (m, j) ∈ l := by
  induction l with
  | nil => simp at h
  | cons x t ih =>
    obtain ⟨a, b⟩ := x
    rw [List.lookup_cons] at h
    by_cases hx : m = a
    · subst hx; simp at h; simp [h]
    · rw [beq_false_of_ne hx] at h
      exact List.mem_cons_of_mem _ (ih h)

theorem Inv.answer (hI : Inv i mid n before h s) {k : Nat} {op : Obj} (hk : k < n) (hl : .serverLost k ∉ h)
    (hf : k ∉ (fin mid n h).map (·.1)) (hr : isResponse op = true) (he : encodes i op = true)
    (hall : ∀ a ∈ fin mid n h, encodes i a.2 = true) :
    Inv i mid n before (h ++ [.response k (mid k) op]) (response s k (mid k) op) := by
  obtain ⟨u, hu⟩ : ∃ u, s.clients[k]? = some u := ⟨_, List.getElem?_eq_getElem (by rw [hI.len]; exact hk)⟩
  obtain ⟨hc, x, hx, hxk⟩ := hI.there k u hu hl hf
  have hlook : u.onwire.lookup (mid k) = some i := by
    cases hlk : u.onwire.lookup (mid k) with
    | none =>
      exfalso
      have : ∀ {l : List (Int × PyVal)}, l.lookup (mid k) = none → ∀ e ∈ l, e.1 ≠ mid k := by
        intro l
        induction l with
        | nil => simp
        | cons y t ih =>
          obtain ⟨a, b⟩ := y
          intro hh
          rw [List.lookup_cons] at hh
          by_cases hya : mid k = a
          · rw [hya] at hh; simp at hh
          · rw [beq_false_of_ne hya] at hh
            intro e he
            rcases List.mem_cons.mp he with rfl | he
            · exact fun e => hya e.symm
            · exact ih hh e he
      exact this hlk x hx hxk
    | some j =>
      have := (hI.only k u hu _ (lookup_mem hlk)).mpr rfl
      simp at this; rw [this]
  have hlt : (fin mid n h).length < n := by
    have := Tree.nodup_bound n (k :: (fin mid n h).map (·.1)) (List.nodup_cons.mpr ⟨hf, hI.nodup⟩) (by
      intro y hy
      rcases List.mem_cons.mp hy with rfl | hy
      · exact hk
      · exact hI.range y hy)
    simp at this; exact this
  have hans : answers mid n [.response k (mid k) op] = [(k, op)] := by simp [answers, hk]
  have hsend : toClient i s.sent = before ++ non mid n h := by
    rw [hI.sent, if_neg (Nat.ne_of_lt hlt), List.append_nil]
  unfold response
  rw [hu]
  simp only [hc, hr, Bool.and_self, ↓reduceIte, hlook]
  by_cases hfo : isFinal op = true
  · -- a last response
    have hfin : fin mid n (h ++ [.response k (mid k) op]) = fin mid n h ++ [(k, op)] := by
      unfold fin; rw [answers_snoc, hans, List.filter_append]; simp [hfo]
    have hnon : non mid n (h ++ [.response k (mid k) op]) = non mid n h := by
      unfold non; rw [answers_snoc, hans, List.filter_append]; simp [hfo]
    have hq : queued s i op = (n, (fin mid n h).map (·.2) ++ [op]) := by
      unfold queued
      rw [hI.merge]
      by_cases hnil : fin mid n h = []
      · rw [if_pos (.inl hnil)]; simp [hnil, hI.len]
      · rw [if_neg (by rintro (hh | hh); exact hnil hh; omega)]
    -- the table of the server
    have hset : ∀ s0 : St, s0.clients = s.clients → ∀ (k' : Nat) (u' : Up),
        (setUp s0 k { u with onwire := u.onwire.filter fun e => e.1 ≠ mid k }).clients[k']? = some u' →
        (k' = k ∧ u' = { u with onwire := u.onwire.filter fun e => e.1 ≠ mid k }) ∨ (k' ≠ k ∧ s.clients[k']? = some u') := by
      intro s0 h0 k' u' hk'
      unfold setUp at hk'
      simp only [h0, List.getElem?_set] at hk'
      by_cases hkk : k = k'
      · rw [if_pos hkk] at hk'
        split at hk'
        · exact .inl ⟨hkk.symm, (Option.some.inj hk').symm⟩
        · simp at hk'
      · rw [if_neg hkk] at hk'
        exact .inr ⟨fun hh => hkk hh.symm, hk'⟩
    have build : ∀ (m : List (PyVal × Nat × List Obj)) (l : List (PyVal × Obj)),
        (m.lookup i = if (fin mid n h).length + 1 = n then none else some (n, (fin mid n h).map (·.2) ++ [op])) →
        (toClient i l = before ++ non mid n h ++
          if (fin mid n h).length + 1 = n then [pick ((fin mid n h).map (·.2) ++ [op])] else []) →
        Inv i mid n before (h ++ [.response k (mid k) op])
          (setUp { s with merge := m, sent := l } k { u with onwire := u.onwire.filter fun e => e.1 ≠ mid k }) := by
      intro m l hm hs
      have hset' := hset { s with merge := m, sent := l } rfl
      refine ⟨hI.conn, ?_, hI.full, hI.next, ?_, ?_, ?_, ?_, ?_, ?_, ?_⟩
      · show (s.clients.set k _).length = n
        rw [List.length_set]; exact hI.len
      · rw [hfin, List.map_append]
        exact List.nodup_append.mpr ⟨hI.nodup, by simp, by
          intro a ha b hb; simp at hb; subst hb; exact fun hh => hf (hh ▸ ha)⟩
      · rw [hfin, List.map_append]
        intro k' hk'
        rcases List.mem_append.mp hk' with hk' | hk'
        · exact hI.range k' hk'
        · simp at hk'; omega
      · intro k' u' hk' e he
        rcases hset' k' u' hk' with ⟨rfl, rfl⟩ | ⟨_, hk'⟩
        · exact hI.only _ u hu e (List.mem_filter.mp he).1
        · exact hI.only k' u' hk' e he
      · intro k' u' hk' hl' hf'
        rw [hfin, List.map_append] at hf'
        rcases hset' k' u' hk' with ⟨rfl, rfl⟩ | ⟨_, hk'⟩
        · exact absurd (List.mem_append_right _ (by simp)) hf'
        · exact hI.there k' u' hk' (fun hh => hl' (List.mem_append_left _ hh)) fun hh => hf' (List.mem_append_left _ hh)
      · intro k' u' hk' hf' e he
        rw [hfin, List.map_append] at hf'
        rcases hset' k' u' hk' with ⟨rfl, rfl⟩ | ⟨hne, hk'⟩
        · simpa using (List.mem_filter.mp he).2
        · rcases List.mem_append.mp hf' with hf' | hf'
          · exact hI.gone k' u' hk' hf' e he
          · simp at hf'; exact absurd hf' hne
      · show m.lookup i = _
        rw [hfin, hm]; simp
      · show toClient i l = _
        rw [hfin, hnon, hs]; simp
    by_cases hlast : (fin mid n h).length + 1 = n
    · have hpick : choose op (((fin mid n h).map (·.2) ++ [op]).take s.clients.length) = pick ((fin mid n h).map (·.2) ++ [op]) := by
        rw [List.take_of_length_le (by simp [hI.len]; omega)]
        unfold pick; simp
      have henc : encodes i (pick ((fin mid n h).map (·.2) ++ [op])) = true := by
        rw [← hpick]
        rcases choose_mem (((fin mid n h).map (·.2) ++ [op]).take s.clients.length) op with hh | hh
        · rw [hh]; exact he
        · rcases List.mem_append.mp (List.mem_of_mem_take hh) with hh | hh
          · obtain ⟨a, ha, hae⟩ := List.mem_map.mp hh
            rw [← hae]; exact hall a ha
          · simp at hh; rw [hh]; exact he
      have hqueue : queue s i op = ({ s with merge := drop s.merge i, sent := s.sent ++ [(i, pick ((fin mid n h).map (·.2) ++ [op]))] }, false) := by
        unfold queue
        rw [if_pos hfo, hq, if_pos ⟨by omega, by simp; omega⟩, hpick]
        unfold write
        rw [if_pos (by simp [hI.conn, henc])]
      rw [hqueue]
      simp only [hfo, Bool.not_false, Bool.and_self, ↓reduceIte]
      have b := build (drop s.merge i) (s.sent ++ [(i, pick ((fin mid n h).map (·.2) ++ [op]))])
        (by rw [if_pos hlast]; exact drop_self _ _) (by rw [if_pos hlast, ← hsend]; simp [toClient])
      simp only [hc] at b
      exact b
    · have hqueue : queue s i op = ({ s with merge := (i, n, (fin mid n h).map (·.2) ++ [op]) :: drop s.merge i }, false) := by
        unfold queue
        rw [if_pos hfo, hq, if_neg (by simp; omega)]
      rw [hqueue]
      simp only [hfo, Bool.not_false, Bool.and_self, ↓reduceIte]
      have b := build ((i, n, (fin mid n h).map (·.2) ++ [op]) :: drop s.merge i) s.sent
        (by rw [if_neg hlast, List.lookup_cons]; simp) (by rw [if_neg hlast, List.append_nil]; exact hsend)
      simp only [hc] at b
      exact b
  · -- an intermediate response
    have hfin : fin mid n (h ++ [.response k (mid k) op]) = fin mid n h := by
      unfold fin; rw [answers_snoc, hans, List.filter_append]; simp [hfo]
    have hnon : non mid n (h ++ [.response k (mid k) op]) = non mid n h ++ [op] := by
      unfold non; rw [answers_snoc, hans, List.filter_append]; simp [hfo]
    have hqueue : queue s i op = ({ s with sent := s.sent ++ [(i, op)] }, false) := by
      unfold queue
      rw [if_neg hfo]
      unfold write
      rw [if_pos (by simp [hI.conn, he])]
    rw [hqueue]
    simp only [hfo, Bool.not_false, Bool.and_false, Bool.false_eq_true, ↓reduceIte]
    refine ⟨hI.conn, hI.len, hI.full, hI.next, by rw [hfin]; exact hI.nodup, by rw [hfin]; exact hI.range, hI.only, ?_, ?_, ?_, ?_⟩
    · intro k' u' hk' hl' hf'
      rw [hfin] at hf'
      exact hI.there k' u' hk' (fun hh => hl' (List.mem_append_left _ hh)) hf'
    · intro k' u' hk' hf'
      rw [hfin] at hf'
      exact hI.gone k' u' hk' hf'
    · rw [hfin]; exact hI.merge
    · rw [hfin, hnon, if_neg (Nat.ne_of_lt hlt), List.append_nil, ← List.append_assoc, ← hsend]
      simp [toClient]

/-- Requests, responses to other requests, and losses of servers keep the invariant. -/
theorem Inv.step (hI : Inv i mid n before h s) {e : Event} (hO : Orderly i mid n (h ++ [e])) :
    Inv i mid n before (h ++ [e]) (Verif.Merger.step s e) := by
  have keep : answers mid n [e] = [] → Inv i mid n before (h ++ [e]) s := fun hans =>
    hI.other hans hI.conn hI.len hI.full (Int.le_refl _)
      (fun k u hk => ⟨u, hk, fun _ => rfl, fun x hx => .inl hx, fun _ x hx _ => hx⟩) rfl rfl
  cases e with
  | serverUp =>
    show Inv i mid n before _ (if s.ups < s.servers then serverUp s else s)
    rw [if_neg (by have := hI.full; omega)]
    exact keep rfl
  | serverLost k =>
    show Inv i mid n before _ (serverLost s k)
    unfold serverLost
    cases hk : s.clients[k]? with
    | none => exact keep rfl
    | some u =>
      refine hI.other rfl hI.conn (by show (s.clients.set k _).length = n; rw [List.length_set]; exact hI.len) hI.full
        (Int.le_refl _) ?_ rfl rfl
      intro k' u' hk'
      simp only [setUp, List.getElem?_set] at hk'
      by_cases hkk : k = k'
      · subst hkk
        refine ⟨u, hk, fun hh => absurd rfl hh, ?_, fun hh => absurd rfl hh⟩
        rw [if_pos rfl] at hk'
        split at hk'
        · simp at hk'; subst hk'; simp
        · simp at hk'
      · rw [if_neg hkk] at hk'
        exact ⟨u', hk', fun _ => rfl, fun x hx => .inl hx, fun _ x hx _ => hx⟩
  | lost => exact absurd (by simp) hO.stays
  | request j op =>
    have hj : j ≠ i := fun hh => hO.noReuse op (by simp [hh])
    have hqueue : ∀ r, Inv i mid n before (h ++ [.request j op]) (queue s j r).1 := by
      intro r
      obtain ⟨m, l, hq, hm, hs⟩ := queue_other s r hj
      rw [hq]
      exact hI.other rfl hI.conn hI.len hI.full (Int.le_refl _)
        (fun k u hk => ⟨u, hk, fun _ => rfl, fun x hx => .inl hx, fun _ x hx _ => hx⟩) hm hs
    have hwhen : ∀ b, Inv i mid n before (h ++ [.request j op]) (whenConnected { s with unbound := b } j op) := by
      intro b
      unfold whenConnected
      split
      · obtain ⟨h1, h2, h3⟩ := forward_facts j op s.clients s.nextId
        refine hI.other rfl hI.conn (by rw [← hI.len, ← h2]; rfl) hI.full h1 ?_ rfl rfl
        intro k u' hk
        obtain ⟨u, hu, hc, hw⟩ := h3 k u' hk
        refine ⟨u, hu, fun _ => hc, ?_, ?_⟩
        · intro x hx
          rcases hw with hw | ⟨m, ha, _, hw⟩
          · rw [hw] at hx; exact .inl hx
          · rw [hw] at hx
            rcases List.mem_append.mp hx with hx | hx
            · exact .inl hx
            · simp at hx; subst hx; exact .inr ⟨hj, ha⟩
        · intro _ x hx _
          rcases hw with hw | ⟨m, _, _, hw⟩
          · rw [hw]; exact hx
          · rw [hw]; exact List.mem_append_left _ hx
      · exact hI.other rfl hI.conn hI.len hI.full (Int.le_refl _)
          (fun k u hk => ⟨u, hk, fun _ => rfl, fun x hx => .inl hx, fun _ x hx _ => hx⟩) rfl rfl
    show Inv i mid n before _ (if s.connected && Server.isRequest op && j ≠ .int 0 then receive s j op else s)
    split
    · unfold receive
      split
      · exact hqueue _
      · exact hqueue _
      · exact hqueue _
      · exact hqueue _
      · exact hqueue _
      · exact hwhen true
      · exact hwhen s.unbound
    · exact keep rfl
  | response k m op =>
    by_cases hkm : k < n ∧ m = mid k
    · obtain ⟨hk, rfl⟩ := hkm
      obtain ⟨hlast, hlost⟩ := hO.last h [] k op rfl hk
      have hans : answers mid n [.response k (mid k) op] = [(k, op)] := by simp [answers, hk]
      obtain ⟨hr, he⟩ := hO.response (k, op) (by rw [answers_snoc, hans]; simp)
      refine hI.answer hk hlost ?_ hr he fun a ha => ?_
      · intro hh
        obtain ⟨⟨k', op'⟩, ha, hk'⟩ := List.mem_map.mp hh
        simp only at hk'
        subst hk'
        obtain ⟨ha, hfo⟩ := List.mem_filter.mp ha
        obtain ⟨ev, hev, hev'⟩ := List.mem_filterMap.mp ha
        cases ev with
        | response k2 m2 op2 =>
          simp only [Option.ite_none_right_eq_some, Option.some.injEq, Prod.mk.injEq] at hev'
          obtain ⟨⟨_, rfl⟩, rfl, rfl⟩ := hev'
          exact hlast _ hev ((final_iff _).mp hfo)
        | _ => simp at hev'
      · exact (hO.response a (by rw [answers_snoc]; exact List.mem_append_left _ (List.mem_filter.mp ha).1)).2
    · have hans : answers mid n [.response k m op] = [] := by simp [answers]; omega
      show Inv i mid n before _ (response s k m op)
      unfold response
      cases hk : s.clients[k]? with
      | none => exact keep hans
      | some u =>
        simp only
        split
        · cases hl : u.onwire.lookup m with
          | none => exact keep hans
          | some j =>
            have hkn : k < n := by
              have := (List.getElem?_eq_some_iff.mp hk).1
              rw [hI.len] at this; exact this
            have hj : j ≠ i := by
              intro hh
              exact hkm ⟨hkn, (hI.only k u hk _ (lookup_mem hl)).mp hh⟩
            obtain ⟨mm, l, hq, hm, hs⟩ := queue_other s op hj
            simp only
            split
            · rw [hq]
              refine hI.other hans hI.conn (by show (s.clients.set k _).length = n; rw [List.length_set]; exact hI.len) hI.full
                (Int.le_refl _) ?_ hm hs
              intro k' u' hk'
              simp only [setUp, List.getElem?_set] at hk'
              by_cases hkk : k = k'
              · subst hkk
                rw [if_pos rfl] at hk'
                split at hk'
                · have := Option.some.inj hk'
                  subst this
                  refine ⟨u, hk, fun _ => rfl, fun x hx => .inl (List.mem_filter.mp hx).1, fun _ x hx hxi => ?_⟩
                  refine List.mem_filter.mpr ⟨hx, ?_⟩
                  have := (hI.only k u hk x hx).mp hxi
                  simp only [ne_eq, decide_not, Bool.not_eq_eq_eq_not, Bool.not_true, decide_eq_false_iff_not]
                  intro hxm
                  exact hkm ⟨hkn, by rw [← hxm, this]⟩
                · simp at hk'
              · rw [if_neg hkk] at hk'
                exact ⟨u', hk', fun _ => rfl, fun x hx => .inl hx, fun _ x hx _ => hx⟩
            · rw [hq]
              exact hI.other hans hI.conn hI.len hI.full (Int.le_refl _)
                (fun k u hk => ⟨u, hk, fun _ => rfl, fun x hx => .inl hx, fun _ x hx _ => hx⟩) hm hs
        · exact keep hans

theorem Orderly.init {e : Event} (hO : Orderly i mid n (h ++ [e])) : Orderly i mid n h := by
  refine ⟨fun a ha => hO.response a (by rw [answers_snoc]; exact List.mem_append_left _ ha), ?_,
    fun hh => hO.stays (List.mem_append_left _ hh), fun op hh => hO.noReuse op (List.mem_append_left _ hh)⟩
  intro a b k op hab hk
  exact hO.last a (b ++ [e]) k op (by rw [hab]; simp) hk

theorem Inv.run (hI : Inv i mid n before [] s) : ∀ r : List Event, Orderly i mid n r.reverse →
    Inv i mid n before r.reverse (Merger.run s r.reverse)
  | [], _ => hI
  | e :: r, hO => by
    rw [List.reverse_cons] at hO ⊢
    have := hI.run r (Orderly.init hO)
    show Inv _ _ _ _ _ (List.foldl _ _ _)
    rw [List.foldl_append]
    exact this.step hO

end

theorem mem_fin {mid : Nat → Int} {n : Nat} {h : List Event} {k : Nat} :
    k ∈ (fin mid n h).map (·.1) ↔ ∃ r, (k, r) ∈ answers mid n h ∧ Final r := by
  constructor
  · intro hh
    obtain ⟨⟨k', r⟩, ha, rfl⟩ := List.mem_map.mp hh
    obtain ⟨ha, hf⟩ := List.mem_filter.mp ha
    exact ⟨r, ha, (final_iff r).mp hf⟩
  · rintro ⟨r, ha, hf⟩
    exact List.mem_map.mpr ⟨(k, r), List.mem_filter.mpr ⟨ha, (final_iff r).mpr hf⟩, rfl⟩

/-- **C44**, for bind and search requests.  After any history that leaves the client and all servers connected, with
nothing pending under the message id `i`, a request with that id is written to every server, under some message ids.
After any further history in which the servers behave:

* if every server has sent its last response, the client was sent the other responses in the order of their arrival and
  then one last response `f`; it is one of the last responses, it is a success iff one of them is, and the message id is
  free again;
* otherwise the client was sent the other responses, and no last one.  This includes histories in which a server is lost
  before its last response: such a request is never finished.

What is missing is that other requests are forwarded as well, and each of their answers is relayed; see
`compare_answered_twice`. -/
theorem merged_partial (servers : Nat) (h1 : List Event) (i : PyVal) (op : Obj)
    (hop : (∃ tag v dn auth, op = .bind tag v dn auth) ∨
      ∃ tag base scope deref sl tl ty f attrs, op = .searchRequest tag base scope deref sl tl ty f attrs)
    (hi : i ≠ .int 0) :
    let s := run (start servers) h1
    let n := s.clients.length
    (∀ m : Int, s.nextId ≤ m → m < s.nextId + n → Server.encodes (.int m) op = true) →
    s.connected = true → s.allConnected = true → (∀ u ∈ s.clients, u.connected = true) → Free i s →
    ∃ mid : Nat → Int,
      (∀ (k : Nat) (u : Up), s.clients[k]? = some u →
        ∃ u', (step s (.request i op)).clients[k]? = some u' ∧ u'.wrote = u.wrote ++ [(mid k, op)]) ∧
      ∀ h2, Orderly i mid n h2 →
        let s2 := run s (.request i op :: h2)
        let inter := (answers mid n h2).filter (fun a => !isFinal a.2) |>.map (·.2)
        ((∀ k, k < n → ∃ r, (k, r) ∈ answers mid n h2 ∧ Final r) →
          (∃ f, toClient i s2.sent = toClient i s.sent ++ inter ++ [f] ∧
            Final f ∧ (∃ k, (k, f) ∈ answers mid n h2) ∧
            (Succeeded f ↔ ∃ a ∈ answers mid n h2, Final a.2 ∧ Succeeded a.2)) ∧ Free i s2) ∧
        ((¬ ∀ k, k < n → ∃ r, (k, r) ∈ answers mid n h2 ∧ Final r) → toClient i s2.sent = toClient i s.sent ++ inter) := by
  intro s n henc hconn hall hup hfree
  have hsound : Sound s := sound_run servers h1
  have hn : needsAnswer op = some true ∧ Server.isRequest op = true ∧ ∀ s', receive s' i op = whenConnected s' i op := by
    rcases hop with ⟨tag, v, dn, auth, rfl⟩ | ⟨tag, base, scope, deref, sl, tl, ty, f, attrs, rfl⟩ <;> exact ⟨rfl, rfl, fun _ => rfl⟩
  obtain ⟨hna, hreq, hrec⟩ := hn
  have hlen : s.clients.length = s.ups := hsound.len hconn
  have hups : s.ups = s.servers := hsound.all hall hconn
  obtain ⟨hf1, hf2⟩ := forward_all (id := i) hna s.clients s.nextId henc hup
  obtain ⟨_, hfl, _⟩ := forward_facts i op s.clients s.nextId
  have hstep : step s (.request i op) =
      { s with nextId := (forward i op s.nextId s.clients).1, clients := (forward i op s.nextId s.clients).2 } := by
    show (if s.connected && Server.isRequest op && i ≠ .int 0 then receive s i op else s) = _
    rw [if_pos (by simp [hconn, hreq, hi]), hrec]
    unfold whenConnected
    rw [if_pos hall]
    rfl
  refine ⟨fun k => s.nextId + k, ?_, ?_⟩
  · intro k u hk
    rw [hstep]
    exact ⟨_, hf2 k u hk, rfl⟩
  · intro h2 hO
    let mid : Nat → Int := fun k => s.nextId + k
    have old : ∀ (k : Nat) (u : Up), (forward i op s.nextId s.clients).2[k]? = some u →
        ∃ v, s.clients[k]? = some v ∧ u.connected = true ∧ u.onwire = v.onwire ++ [(mid k, i)] := by
      intro k u hk
      have hk' : k < s.clients.length := by
        have := (List.getElem?_eq_some_iff.mp hk).1
        rw [hfl] at this; exact this
      have hv := List.getElem?_eq_getElem hk'
      have hw := hf2 k _ hv
      rw [hk] at hw
      have hw := Option.some.inj hw
      exact ⟨_, hv, by rw [hw]; exact hup s.clients[k] (List.getElem_mem hk'), by rw [hw]⟩
    have h0 : Inv i mid n (toClient i s.sent) [] (step s (.request i op)) := by
      rw [hstep]
      refine ⟨hconn, hfl, by show s.servers ≤ s.ups; omega, ?_, List.nodup_nil, by simp [fin, answers], ?_, ?_, by simp [fin, answers], ?_, ?_⟩
      · intro k hk
        show s.nextId + (k : Int) < (forward i op s.nextId s.clients).1
        have : k < s.clients.length := hk
        rw [hf1]; omega
      · intro k u hk e he
        obtain ⟨v, hv, _, hw⟩ := old k u hk
        rw [hw] at he
        rcases List.mem_append.mp he with he | he
        · have h1 := hfree.1 v (List.mem_of_getElem? hv) e he
          have h2 := hsound.keys v (List.mem_of_getElem? hv) e he
          exact ⟨fun hh => absurd hh h1, fun hh => by rw [hh] at h2; exact absurd h2 (by show ¬ s.nextId + (k : Int) < _; omega)⟩
        · simp at he; subst he; simp
      · intro k u hk _ _
        obtain ⟨v, hv, hc, hw⟩ := old k u hk
        exact ⟨hc, (mid k, i), by rw [hw]; simp, rfl⟩
      · show s.merge.lookup i = _
        rw [if_pos (.inl rfl)]
        exact none_lookup hfree.2
      · show toClient i s.sent = _
        have hnpos : (fin mid n []).length ≠ n := by
          show 0 ≠ n
          have := hsound.pos hall
          show 0 ≠ s.clients.length
          omega
        rw [if_neg hnpos]
        simp [non, answers]
    have hI := h0.run h2.reverse (by rw [List.reverse_reverse]; exact hO)
    rw [List.reverse_reverse] at hI
    have hrun : run s (.request i op :: h2) = run (step s (.request i op)) h2 := rfl
    simp only [hrun]
    refine ⟨fun hd => ?_, fun hd => ?_⟩
    · have hfull : (fin mid n h2).length = n := by
        have hle : ((fin mid n h2).map (·.1)).length ≤ n := Tree.nodup_bound n _ hI.nodup hI.range
        have hge : n ≤ ((fin mid n h2).map (·.1)).length := by
          have hsub : ∀ k ∈ List.range n, k ∈ (fin mid n h2).map (·.1) := fun k hk => mem_fin.mpr (hd k (List.mem_range.mp hk))
          have := (List.nodup_range (n := n)).length_le_of_subset hsub
          rwa [List.length_range] at this
        simp at hle hge; omega
      have hne : fin mid n h2 ≠ [] := by
        intro hh
        have h1 := h0.sent
        have h2 := h0.len
        rw [hh] at hfull
        rw [show (fin mid n []).length = 0 from rfl, if_pos (by simpa using hfull)] at h1
        have : (toClient i (step s (.request i op)).sent) = toClient i s.sent := by rw [hstep]
        rw [this] at h1
        have := congrArg List.length h1
        simp [non, answers] at this
      have hs := hI.sent
      rw [if_pos hfull] at hs
      obtain ⟨x, hlast⟩ : ∃ x, ((fin mid n h2).map (·.2)).getLast? = some x := by
        cases hg : ((fin mid n h2).map (·.2)).getLast? with
        | none => rw [List.getLast?_eq_none_iff] at hg; exact absurd (List.map_eq_nil_iff.mp hg) hne
        | some x => exact ⟨x, rfl⟩
      have hx : ((fin mid n h2).map (·.2)).getLastD default = x := by rw [List.getLastD_eq_getLast?, hlast]; rfl
      have hxm : x ∈ (fin mid n h2).map (·.2) := List.mem_of_getLast? hlast
      have hpm : pick ((fin mid n h2).map (·.2)) ∈ (fin mid n h2).map (·.2) := by
        unfold pick
        rw [hx]
        rcases choose_mem ((fin mid n h2).map (·.2)) x with hh | hh
        · rw [hh]; exact hxm
        · exact hh
      obtain ⟨⟨k, f⟩, ha, hf⟩ := List.mem_map.mp hpm
      simp only at hf
      obtain ⟨ha, hfin⟩ := List.mem_filter.mp ha
      refine ⟨⟨_, hs, ?_, ⟨k, hf ▸ ha⟩, ?_⟩, ?_, ?_⟩
      · rw [← hf]; exact (final_iff f).mp hfin
      · rw [← success_iff]
        unfold pick
        rw [choose_success, hx]
        constructor
        · rintro (hh | ⟨r, hr, hh⟩)
          · obtain ⟨a, ha, rfl⟩ := List.mem_map.mp hxm
            obtain ⟨ha, haf⟩ := List.mem_filter.mp ha
            exact ⟨a, ha, (final_iff _).mp haf, (success_iff _).mp hh⟩
          · obtain ⟨a, ha, rfl⟩ := List.mem_map.mp hr
            obtain ⟨ha, haf⟩ := List.mem_filter.mp ha
            exact ⟨a, ha, (final_iff _).mp haf, (success_iff _).mp hh⟩
        · rintro ⟨a, ha, haf, has⟩
          exact .inr ⟨a.2, List.mem_map.mpr ⟨a, List.mem_filter.mpr ⟨ha, (final_iff _).mpr haf⟩, rfl⟩, (success_iff _).mpr has⟩
      · intro u hu e he hei
        obtain ⟨k, hk⟩ := List.mem_iff_getElem?.mp hu
        have hkn : k < n := by
          have := (List.getElem?_eq_some_iff.mp hk).1
          rw [hI.len] at this; exact this
        exact hI.gone k u hk (mem_fin.mpr (hd k hkn)) e he ((hI.only k u hk e he).mp hei)
      · have hm := hI.merge
        rw [if_pos (.inr hfull)] at hm
        exact lookup_none hm
    · have hlt : (fin mid n h2).length ≠ n := by
        intro hh
        apply hd
        intro k hk
        refine mem_fin.mp (Classical.byContradiction fun hnk => ?_)
        have := Tree.nodup_bound n (k :: (fin mid n h2).map (·.1)) (List.nodup_cons.mpr ⟨hnk, hI.nodup⟩) (by
          intro y hy
          rcases List.mem_cons.mp hy with rfl | hy
          · exact hk
          · exact hI.range y hy)
        simp at this; omega
      have hs := hI.sent
      rw [if_neg hlt, List.append_nil] at hs
      exact hs

/-- A message id that the client has not used is free. -/
theorem unused_free (servers : Nat) (h : List Event) (i : PyVal) (hn : ∀ op, .request i op ∉ h) :
    Free i (run (start servers) h) := by
  have key : ∀ (h : List Event) (s : St), (∀ op, .request i op ∉ h) → Free i s → (∀ w ∈ s.waiting, w.1 ≠ i) →
      Free i (run s h) := by
    have hfw : ∀ (s : St) (j : PyVal) (op : Obj), j ≠ i → Free i s → Free i (clientQueue s j op) := by
      intro s j op hj hf
      refine ⟨fun u' hu' e he => ?_, hf.2⟩
      obtain ⟨k, hk⟩ := List.mem_iff_getElem?.mp hu'
      obtain ⟨u, hu, _, hw⟩ := (forward_facts j op s.clients s.nextId).2.2 k u' hk
      have old := hf.1 u (List.mem_of_getElem? hu)
      rcases hw with hw | ⟨m, _, _, hw⟩
      · rw [hw] at he; exact old e he
      · rw [hw] at he
        rcases List.mem_append.mp he with he | he
        · exact old e he
        · simp at he; subst he; exact hj
    have hfold : ∀ (l : List (PyVal × Obj)) (s : St), (∀ w ∈ l, w.1 ≠ i) → Free i s →
        Free i (l.foldl (fun s w => clientQueue s w.1 w.2) s) ∧
          (l.foldl (fun s w => clientQueue s w.1 w.2) s).waiting = s.waiting := by
      intro l
      induction l with
      | nil => exact fun s _ hf => ⟨hf, rfl⟩
      | cons w l ih =>
        intro s hw hf
        exact ih (clientQueue s w.1 w.2) (fun w' hw' => hw w' (List.mem_cons_of_mem _ hw'))
          (hfw s w.1 w.2 (hw w (List.mem_cons_self ..)) hf)
    have hqu : ∀ (s : St) (j : PyVal) (op : Obj), j ≠ i → Free i s → Free i (queue s j op).1 ∧ (queue s j op).1.waiting = s.waiting := by
      intro s j op hj hf
      obtain ⟨m, l, hq, hm, _⟩ := queue_other s op hj
      rw [hq]
      exact ⟨⟨hf.1, lookup_none (by rw [hm]; exact none_lookup hf.2)⟩, rfl⟩
    intro h
    induction h with
    | nil => exact fun s _ hf _ => hf
    | cons e h ih =>
      intro s hn hf hw
      have hn' : ∀ op, Event.request i op ∉ h := fun op hh => hn op (List.mem_cons_of_mem _ hh)
      refine ih (step s e) hn' ?_ ?_ <;> cases e with
      | serverUp =>
        show _
        by_cases hlt : s.ups < s.servers
        · rw [show step s .serverUp = serverUp s from if_pos hlt]
          have hf' : ∀ b w, Free i { s with ups := s.ups + 1, clients := s.clients ++ [⟨true, [], []⟩], allConnected := b, waiting := w } := by
            intro b w
            refine ⟨fun u hu e he => ?_, hf.2⟩
            rcases List.mem_append.mp hu with hu | hu
            · exact hf.1 u hu e he
            · simp at hu; subst hu; simp at he
          unfold serverUp
          simp only
          split
          · have := hfold s.waiting _ hw (hf' (s.allConnected || decide ((s.clients ++ [(⟨true, [], []⟩ : Up)]).length = s.servers)) [])
            first | exact this.1 | (rw [this.2]; simp)
          · first | exact hf' _ _ | exact hw
        · rw [show step s .serverUp = s from if_neg hlt]
          first | exact hf | exact hw
      | serverLost k =>
        show _
        rw [show step s (.serverLost k) = serverLost s k from rfl]
        unfold serverLost
        split
        · first | exact hf | exact hw
        · first
            | exact hw
            | (refine ⟨fun u hu e he => ?_, hf.2⟩
               rcases List.mem_or_eq_of_mem_set hu with hu | rfl
               · exact hf.1 u hu e he
               · simp at he)
      | lost => first | exact ⟨by simp [step], hf.2⟩ | exact hw
      | request j op =>
        have hj : j ≠ i := fun hh => hn op (by simp [hh])
        have hwc : ∀ b, Free i (whenConnected { s with unbound := b } j op) ∧
            ∀ w ∈ (whenConnected { s with unbound := b } j op).waiting, w.1 ≠ i := by
          intro b
          unfold whenConnected
          split
          · exact ⟨hfw { s with unbound := b } j op hj hf, hw⟩
          · refine ⟨hf, fun w hw' => ?_⟩
            rcases List.mem_append.mp hw' with hw' | hw'
            · exact hw w hw'
            · simp at hw'; subst hw'; exact hj
        have hqr : ∀ r, Free i (queue s j r).1 ∧ ∀ w ∈ (queue s j r).1.waiting, w.1 ≠ i := fun r => by
          obtain ⟨h1, h2⟩ := hqu s j r hj hf
          exact ⟨h1, by rw [h2]; exact hw⟩
        have hboth : Free i (step s (.request j op)) ∧ ∀ w ∈ (step s (.request j op)).waiting, w.1 ≠ i := by
          by_cases hc : (s.connected && Server.isRequest op && decide (j ≠ .int 0)) = true
          · rw [show step s (.request j op) = receive s j op from if_pos hc]
            unfold receive
            split
            · exact hqr _
            · exact hqr _
            · exact hqr _
            · exact hqr _
            · exact hqr _
            · exact hwc true
            · exact hwc s.unbound
          · rw [show step s (.request j op) = s from if_neg hc]
            exact ⟨hf, hw⟩
        first | exact hboth.1 | exact hboth.2
      | response k m op =>
        have hboth : Free i (step s (.response k m op)) ∧ ∀ w ∈ (step s (.response k m op)).waiting, w.1 ≠ i := by
          rw [show step s (.response k m op) = response s k m op from rfl]
          unfold response
          split
          · exact ⟨hf, hw⟩
          · rename_i u hk
            split
            · split
              · exact ⟨hf, hw⟩
              · rename_i j hl
                have hj : j ≠ i := hf.1 u (List.mem_of_getElem? hk) _ (lookup_mem hl)
                obtain ⟨h1, h2⟩ := hqu s j op hj hf
                obtain ⟨mm, ll, hq⟩ := queue_shape s j op
                simp only
                split
                · refine ⟨⟨fun v hv e he => ?_, h1.2⟩, by show ∀ w ∈ (queue s j op).1.waiting, _; rw [h2]; exact hw⟩
                  rcases List.mem_or_eq_of_mem_set hv with hv | rfl
                  · exact h1.1 v hv e he
                  · exact hf.1 u (List.mem_of_getElem? hk) e (List.mem_filter.mp he).1
                · exact ⟨h1, by rw [h2]; exact hw⟩
            · exact ⟨hf, hw⟩
        first | exact hboth.1 | exact hboth.2
  exact key h _ hn ⟨by simp [start], by simp [start]⟩ (by simp [start])

/-- The requests that the merger does not support are not forwarded; the client gets one answer of the right class with
the result code unwillingToPerform. -/
theorem unsupported_refused (s : St) (hc : s.connected = true) (i : Int) (hi : i ≠ 0) (op : Obj) :
    ((∃ tag dn, op = .oct .delRequest tag dn) → encodes (.int i) (.result .delResponse 0x4B (.int 53) (.bytes []) (.bytes []) .none) = true →
      step s (.request (.int i) op) =
        { s with sent := s.sent ++ [(.int i, .result .delResponse 0x4B (.int 53) (.bytes []) (.bytes []) .none)] }) ∧
    ((∃ tag dn as, op = .addRequest tag dn as) → encodes (.int i) (.result .addResponse 0x49 (.int 53) (.bytes []) (.bytes []) .none) = true →
      step s (.request (.int i) op) =
        { s with sent := s.sent ++ [(.int i, .result .addResponse 0x49 (.int 53) (.bytes []) (.bytes []) .none)] }) ∧
    ((∃ tag dn ms, op = .modifyRequest tag dn ms) → encodes (.int i) (.result .modifyResponse 0x47 (.int 53) (.bytes []) (.bytes []) .none) = true →
      step s (.request (.int i) op) =
        { s with sent := s.sent ++ [(.int i, .result .modifyResponse 0x47 (.int 53) (.bytes []) (.bytes []) .none)] }) ∧
    ((∃ tag dn rdn del sup, op = .modifyDN tag dn rdn del sup) →
      encodes (.int i) (.result .modifyDNResponse 0x4D (.int 53) (.bytes []) (.bytes []) .none) = true →
      step s (.request (.int i) op) =
        { s with sent := s.sent ++ [(.int i, .result .modifyDNResponse 0x4D (.int 53) (.bytes []) (.bytes []) .none)] }) ∧
    ((∃ tag name v, op = .extRequest tag name v) → encodes (.int i) (.extResponse 0x58 (.int 53) (.bytes []) (.bytes []) .none .none) = true →
      step s (.request (.int i) op) =
        { s with sent := s.sent ++ [(.int i, .extResponse 0x58 (.int 53) (.bytes []) (.bytes []) .none .none)] }) := by
  have key : ∀ (op r : Obj), Server.isRequest op = true → receive s (.int i) op = (queue s (.int i) r).1 → isFinal r = false →
      encodes (.int i) r = true → step s (.request (.int i) op) = { s with sent := s.sent ++ [(.int i, r)] } := by
    intro op r h1 h2 h3 h4
    show (if s.connected && Server.isRequest op && PyVal.int i ≠ .int 0 then receive s (.int i) op else s) = _
    rw [if_pos (by simp [hc, h1, hi]), h2]
    unfold queue
    rw [if_neg (by simp [h3])]
    unfold write
    rw [if_pos (by simp [hc, h4])]
  refine ⟨?_, ?_, ?_, ?_, ?_⟩
  · rintro ⟨_, _, rfl⟩; exact key _ _ rfl rfl rfl
  · rintro ⟨_, _, _, rfl⟩; exact key _ _ rfl rfl rfl
  · rintro ⟨_, _, _, rfl⟩; exact key _ _ rfl rfl rfl
  · rintro ⟨_, _, _, _, _, rfl⟩; exact key _ _ rfl rfl rfl
  · rintro ⟨_, _, _, rfl⟩; exact key _ _ rfl rfl rfl

example : encodes (.int 5) (.result .delResponse 0x4B (.int 53) (.bytes []) (.bytes []) .none) = true := by decide +kernel

/-! ### Examples -/

/-- A search request, an entry and two ways to end the search. -/
def ask : Obj := .searchRequest 0x43 (.bytes []) (.int 2) (.int 0) (.int 0) (.int 0) (.int 0) (.oct .fPresent 0x87 [99, 110]) []
def found (b : UInt8) : Obj := .searchEntry 0x44 (.bytes [b]) []
def done (code : Int) : Obj := .result .searchResultDone 0x45 (.int code) (.bytes []) (.bytes []) .none

/-- Two servers are up. -/
def ready : St := run (start 2) [.serverUp, .serverUp]

/-- The second server finds an entry and fails, then the first one finds an entry and succeeds. -/
def answered : List Event :=
  [.response 1 2 (found 1), .response 1 2 (done 32), .response 0 1 (found 2), .response 0 1 (done 0)]

theorem ready_ok : ready.connected = true ∧ ready.allConnected = true ∧ (∀ u ∈ ready.clients, u.connected = true) ∧
    Free (.int 7) ready := by
  refine ⟨rfl, rfl, ?_, unused_free 2 _ _ (by simp)⟩
  intro u hu
  have : ready.clients = [⟨true, [], []⟩, ⟨true, [], []⟩] := rfl
  rw [this] at hu
  simp at hu
  rw [hu]

example : ∀ m : Int, ready.nextId ≤ m → m < ready.nextId + (ready.clients.length : Nat) → Server.encodes (.int m) ask = true := by
  intro m h1 h2
  have e1 : ready.nextId = 1 := rfl
  have e2 : ready.clients.length = 2 := rfl
  rw [e1] at h1 h2
  rw [e2] at h2
  have : m = 1 ∨ m = 2 := by omega
  rcases this with rfl | rfl <;> decide +kernel

/-- The servers of the example behave. -/
theorem answered_ok : Orderly (.int 7) (fun k => 1 + k) 2 answered := by
  have ne1 : ∀ b, ¬ Final (found b) := by rintro b ⟨_, _, _, _, _, h | h⟩ <;> cases h
  refine ⟨?_, ?_, by simp [answered], by simp [answered]⟩
  · have : answers (fun k => 1 + (k : Int)) 2 answered = [(1, found 1), (1, done 32), (0, found 2), (0, done 0)] := rfl
    rw [this]
    intro a ha
    simp only [List.mem_cons, List.not_mem_nil, or_false] at ha
    rcases ha with rfl | rfl | rfl | rfl <;> decide +kernel
  · intro a b k op hab hk
    match a, hab with
    | [], _ => simp
    | [_], hab =>
      simp [answered] at hab
      obtain ⟨rfl, ⟨rfl, _⟩, _⟩ := hab
      refine ⟨fun op' h => ?_, by simp⟩
      simp at h; rw [h]; exact ne1 1
    | [_, _], hab =>
      simp [answered] at hab
      obtain ⟨rfl, rfl, ⟨rfl, _⟩, _⟩ := hab
      exact ⟨fun op' h => by simp at h, by simp⟩
    | [_, _, _], hab =>
      simp [answered] at hab
      obtain ⟨rfl, rfl, rfl, ⟨rfl, _⟩, _⟩ := hab
      refine ⟨fun op' h => ?_, by simp⟩
      simp at h; rw [h]; exact ne1 2
    | _ :: _ :: _ :: _ :: _, hab => simp [answered] at hab

/-- The client gets both entries and the success. -/
example : toClient (.int 7) (run ready (.request (.int 7) ask :: answered)).sent = [found 1, found 2, done 0] := by
  have h1 : encodes (.int 1) ask = true := by decide +kernel
  have h2 : encodes (.int 2) ask = true := by decide +kernel
  have h3 : encodes (.int 7) (found 1) = true := by decide +kernel
  have h4 : encodes (.int 7) (found 2) = true := by decide +kernel
  have h5 : encodes (.int 7) (done 0) = true := by decide +kernel
  unfold ask found done at *
  simp [answered, ask, found, done, ready, start, run, step, receive, whenConnected, clientQueue, forward, serverUp, response, queue, queued, write,
    setUp, choose, drop, toClient, isFinal, isSuccess, needsAnswer, isResponse, Server.isRequest, List.lookup_cons, h1, h2, h3, h4, h5]

/-! ### Where it fails -/

/-- Only the responses to searches and binds are merged, but every request is forwarded for which there is no handler.  A
client that compares gets an answer from each server: here one that says yes, and one that says no. -/
theorem compare_answered_twice : ∃ yes no : Obj, yes ≠ no ∧
    toClient (.int 7) (run ready [.request (.int 7) (.compare 0x4E (.bytes []) (.ava .ava 0x30 (.oct .octetString 4 [99]) (.oct .octetString 4 [99]))),
      .response 0 1 yes, .response 1 2 no]).sent = [yes, no] := by
  refine ⟨.result .compareResponse 0x4F (.int 6) (.bytes []) (.bytes []) .none,
    .result .compareResponse 0x4F (.int 5) (.bytes []) (.bytes []) .none, by simp, ?_⟩
  have h1 : encodes (.int 1) (.compare 0x4E (.bytes []) (.ava .ava 0x30 (.oct .octetString 4 [99]) (.oct .octetString 4 [99]))) = true := by
    decide +kernel
  have h2 : encodes (.int 2) (.compare 0x4E (.bytes []) (.ava .ava 0x30 (.oct .octetString 4 [99]) (.oct .octetString 4 [99]))) = true := by
    decide +kernel
  have h3 : encodes (.int 7) (.result .compareResponse 0x4F (.int 6) (.bytes []) (.bytes []) .none) = true := by decide +kernel
  have h4 : encodes (.int 7) (.result .compareResponse 0x4F (.int 5) (.bytes []) (.bytes []) .none) = true := by decide +kernel
  simp [ready, start, run, step, receive, whenConnected, clientQueue, forward, serverUp, response, queue, queued, write,
    setUp, choose, drop, toClient, isFinal, isSuccess, needsAnswer, isResponse, Server.isRequest, List.lookup_cons, h1, h2, h3, h4]

/-- A server that is lost before its last response to a search or bind request: the request is never finished, whatever
happens later and whatever the other servers answer. -/
theorem lost_never_finished (servers : Nat) (h1 : List Event) (i : PyVal) (op : Obj)
    (hop : (∃ tag v dn auth, op = .bind tag v dn auth) ∨
      ∃ tag base scope deref sl tl ty f attrs, op = .searchRequest tag base scope deref sl tl ty f attrs)
    (hi : i ≠ .int 0) :
    let s := run (start servers) h1
    let n := s.clients.length
    (∀ m : Int, s.nextId ≤ m → m < s.nextId + n → Server.encodes (.int m) op = true) →
    s.connected = true → s.allConnected = true → (∀ u ∈ s.clients, u.connected = true) → Free i s →
    ∃ mid : Nat → Int,
      (∀ (k : Nat) (u : Up), s.clients[k]? = some u →
        ∃ u', (step s (.request i op)).clients[k]? = some u' ∧ u'.wrote = u.wrote ++ [(mid k, op)]) ∧
      ∀ a b k, Orderly i mid n (a ++ .serverLost k :: b) → k < n → (∀ r, .response k (mid k) r ∈ a → ¬ Final r) →
        ∃ l, toClient i (run s (.request i op :: (a ++ .serverLost k :: b))).sent = toClient i s.sent ++ l ∧ ∀ r ∈ l, ¬ Final r := by
  intro s n henc hconn hall hup hfree
  obtain ⟨mid, hw, hm⟩ := merged_partial servers h1 i op hop hi henc hconn hall hup hfree
  refine ⟨mid, hw, fun a b k hO hk ha => ⟨_, (hm _ hO).2 ?_, ?_⟩⟩
  · intro hd
    obtain ⟨r, hr, hf⟩ := hd k hk
    obtain ⟨ev, hev, hev'⟩ := List.mem_filterMap.mp hr
    cases ev with
    | response k2 m2 op2 =>
      simp only [Option.ite_none_right_eq_some, Option.some.injEq, Prod.mk.injEq] at hev'
      obtain ⟨⟨_, rfl⟩, rfl, rfl⟩ := hev'
      rcases List.mem_append.mp hev with hev | hev
      · exact ha _ hev hf
      · rcases List.mem_cons.mp hev with hev | hev
        · cases hev
        · obtain ⟨b1, b2, rfl⟩ := List.append_of_mem hev
          exact (hO.last (a ++ .serverLost k2 :: b1) b2 k2 op2 (by simp) hk).2 (by simp)
    | _ => simp at hev'
  · intro r hr hf
    obtain ⟨x, hx, rfl⟩ := List.mem_map.mp hr
    have := (List.mem_filter.mp hx).2
    rw [(final_iff _).mpr hf] at this
    simp at this

/-- The first server is lost, the second one has succeeded. -/
example : Orderly (.int 7) (fun k => 1 + k) 2 ([] ++ .serverLost 0 :: [.response 1 2 (done 0)]) := by
  refine ⟨?_, ?_, by simp, by simp⟩
  · have : answers (fun k => 1 + (k : Int)) 2 ([] ++ .serverLost 0 :: [.response 1 2 (done 0)]) = [(1, done 0)] := rfl
    rw [this]
    intro a ha
    simp only [List.mem_cons, List.not_mem_nil, or_false] at ha
    subst ha
    decide +kernel
  · intro a b k op hab hk
    match a, hab with
    | [], hab => simp at hab
    | [_], hab =>
      simp at hab
      obtain ⟨rfl, ⟨rfl, _⟩, _⟩ := hab
      exact ⟨fun op' h => by simp at h, by simp⟩
    | _ :: _ :: _, hab => simp at hab

end Verif.C44
