import Verif.Props.C49
import Verif.Lemmas.SyntaxItems
/-
C50: commit and undo keep the local view and the server state in step.

`undo_restores_partial`, `commit_done_partial`, `commit_refused`: what `undo` and the answers do.  `in_step_partial`: over whole histories the entry
knows the server state, and committing the edits of the moment would turn it into the local view, as long as the entry is
let alone while a request is not answered.

The last clause of the property is false.  `inflight_lost`: an edit made while a commit is in flight is struck from the
record when the answer comes, and the entry then takes it for server state.  `sent_twice`: committing again before the
answer sends all modifications again.

The values of an attribute must be all text or all octets.  `mixed`: after adding text to an attribute that came from
a search, the answer to a successful commit raises `TypeError` and the edits stay recorded.  `mixed_undo`: and `undo`
empties the entry.
-/
namespace Verif.C50
open Verif.Ldap Verif.Spec.Modify Verif.Syntax Verif.C49

variable {env : Server.Env} {V : Vocabulary}

theorem same_symm {c d : Content} (h : Same c d) : Same d c := fun n b => (h n b).symm
theorem same_trans {c d e : Content} (h : Same c d) (h' : Same d e) : Same c e := fun n b => (h n b).trans (h' n b)

/-- A copy of the attributes has the same values under the same names. -/
structure Copy (V : Vocabulary) (d d' : Verif.Attrs) : Prop where
  tidy : V.Tidy d'
  same : ∀ n v, Has d' n v ↔ Has d n v

theorem Copy.content {d d' : Verif.Attrs} (h : Copy V d d') : Same (content d') (content d) := content_of_has h.same

theorem undo_eq (hU : Sane env.U) (hP : V.Plain) (s : St) (hd : V.Tidy s.remote) (ha : s.deleted = false) :
    ∃ d, undo env s = ({ s with attrs := d, journal := [] }, none) ∧ Copy V s.remote d := by
  obtain ⟨l, h0, h1, h2, h3⟩ := items_tidy hU s.dn hP hd
  obtain ⟨h4, h5⟩ := copy_tidy h1 h2
  refine ⟨_, ?_, h4, fun n v => (h5 n v).trans (h3 n v)⟩
  simp only [undo, ha, h0, rebuild_named hU h1]
  rfl

/-- **C50** Undo restores the last known server state and forgets all edits. -/
theorem undo_restores_partial (hU : Sane env.U) (hP : V.Plain) (s : St) (hd : V.Tidy s.remote) (ha : s.deleted = false) :
    (undo env s).2 = none ∧ (undo env s).1.journal = [] ∧ (undo env s).1.remote = s.remote ∧
    V.Tidy (undo env s).1.attrs ∧ ∀ n v, Has (undo env s).1.attrs n v ↔ Has s.remote n v := by
  obtain ⟨d, h, hc⟩ := undo_eq hU hP s hd ha
  rw [h]
  exact ⟨rfl, rfl, rfl, hc.tidy, hc.same⟩

theorem done_eq (hU : Sane env.U) (hP : V.Plain) (s : St) (hd : V.Tidy s.attrs) (ha : s.deleted = false) (tag : UInt8) (message creds : PyVal) :
    ∃ d, committed env s (done tag message creds) = ({ s with remote := d, journal := [] }, none) ∧ Copy V s.attrs d := by
  obtain ⟨l, h0, h1, h2, h3⟩ := items_tidy hU s.dn hP hd
  obtain ⟨h4, h5⟩ := copy_tidy h1 h2
  refine ⟨_, ?_, h4, fun n v => (h5 n v).trans (h3 n v)⟩
  simp only [committed, done, noDn, ha, h0, buildAttrs_named hU h1]
  rfl

/-- **C50** A commit that was carried out makes the local view the server state. -/
theorem commit_done_partial (hU : Sane env.U) (hP : V.Plain) (s : St) (hd : V.Tidy s.attrs) (ha : s.deleted = false) (tag : UInt8) (message creds : PyVal) :
    (committed env s (done tag message creds)).2 = none ∧ (committed env s (done tag message creds)).1.journal = [] ∧
    (committed env s (done tag message creds)).1.attrs = s.attrs ∧ V.Tidy (committed env s (done tag message creds)).1.remote ∧
    ∀ n v, Has (committed env s (done tag message creds)).1.remote n v ↔ Has s.attrs n v := by
  obtain ⟨d, h, hc⟩ := done_eq hU hP s hd ha tag message creds
  rw [h]
  exact ⟨rfl, rfl, rfl, hc.tidy, hc.same⟩

/-- **C50** A commit that was refused keeps all edits, and the caller hears of it. -/
theorem commit_refused (s : St) (msg : Obj) (h : Refused msg) :
    (committed env s msg).1 = s ∧ ∃ code, code ≠ 0 ∧ (committed env s msg).2 = some (.ldap code) := by
  obtain ⟨tag, code, matched, message, creds, hc, rfl⟩ := h
  simp only [committed]
  rw [if_pos hc]
  exact ⟨rfl, code, hc, rfl⟩

/-- **C50** Any other answer leaves the entry as it is, and the caller hears of it: only a plain success ends the edits.  So does
an answer that comes when the entry has been deleted. -/
theorem commit_odd (s : St) (msg : Obj) (h : s.deleted = true ∨ ¬ ∃ tag message creds matched, msg = .result .modifyResponse tag (.int 0) matched message creds ∧ matched = .bytes []) :
    (committed env s msg).1 = s ∧ (committed env s msg).2 ≠ none := by
  unfold committed
  split
  · rename_i tag code matched message creds
    split
    · exact ⟨rfl, by simp⟩
    · rename_i hc
      split
      · rename_i hm
        rcases h with h | h
        · rw [if_pos h]; exact ⟨rfl, by simp⟩
        · exact absurd ⟨tag, message, creds, matched, by rw [show code = 0 by simpa using hc], by simpa [noDn] using hm⟩ h
      · exact ⟨rfl, by simp⟩
  · exact ⟨rfl, by simp⟩

/-- The edits of a history. -/
def Spoken (V : Vocabulary) (es : List Event) : Prop := ∀ e, Event.edit e ∈ es → V.Speaks e

/-- What holds between the events. -/
structure Known (V : Vocabulary) (w : World) (c : Content) : Prop where
  alive : w.entry.deleted = false
  attrs : V.Tidy w.entry.attrs
  remote : V.Tidy w.entry.remote
  server : Same c (content w.entry.remote)
  inStep : InStep w.entry
  pending : w.pending = [] ∨ w.pending = [w.entry.journal]

theorem edit_alive (hU : Sane env.U) (hV : V.Fine) {s : St} {e : Edit} (hd : V.Tidy s.attrs) (he : V.Speaks e) :
    (edit env.U s e).1.deleted = s.deleted := by
  rcases edit_edited hU hV hd he with ⟨h, _⟩ | ⟨m, _, hm⟩
  · rw [h]
  · exact hm.alive

theorem known (hU : Sane env.U) (hV : V.Fine) (hP : V.Plain) {w w' : World} {c c' : Content} {es : List Event} (ht : Calm env w c es w' c')
    (hs : Spoken V es) (h : Known V w c) : Known V w' c' := by
  induction ht with
  | nil => exact h
  | @edit w c e es w' c' hp _ ih =>
    have he := hs e List.mem_cons_self
    refine ih (fun x hx => hs x (List.mem_cons_of_mem _ hx)) ?_
    obtain ⟨h1, h2, h3⟩ := edit_inStep hU hV h.attrs h.inStep he
    exact ⟨(edit_alive hU hV h.attrs he).trans h.alive, h1, by rw [show (step env w (.edit e)).entry.remote = w.entry.remote from h3]; exact h.remote,
      by rw [show (step env w (.edit e)).entry.remote = w.entry.remote from h3]; exact h.server, h2, .inl hp⟩
  | @undo w c es w' c' hp _ ih =>
    refine ih (fun x hx => hs x (List.mem_cons_of_mem _ hx)) ?_
    obtain ⟨d, e, hc⟩ := undo_eq hU hP w.entry h.remote h.alive
    have e' : step env w .undo = { w with entry := { w.entry with attrs := d, journal := [] } } := by
      show ({ w with entry := (undo env w.entry).1 } : World) = _
      rw [e]
    rw [e']
    exact ⟨h.alive, hc.tidy, h.remote, h.server, same_symm hc.content, .inl hp⟩
  | @commit w c es w' c' hp _ ih =>
    refine ih (fun x hx => hs x (List.mem_cons_of_mem _ hx)) ?_
    by_cases hj : w.entry.journal = []
    · have e : step env w .commit = w := by simp [step, Syntax.commit, h.alive, hj]
      rw [e]; exact h
    · have e : step env w .commit = { w with pending := [w.entry.journal] } := by simp [step, Syntax.commit, h.alive, hj, hp]
      rw [e]
      exact ⟨h.alive, h.attrs, h.remote, h.server, h.inStep, .inr rfl⟩
  | @done w c ms rest tag message creds es w' c' hp _ ih =>
    refine ih (fun x hx => hs x (List.mem_cons_of_mem _ hx)) ?_
    obtain ⟨d, e, hc⟩ := done_eq hU hP w.entry h.attrs h.alive tag message creds
    have hms : ms = w.entry.journal ∧ rest = [] := by
      rcases h.pending with h' | h'
      · rw [hp] at h'; cases h'
      · rw [hp] at h'; cases h'; exact ⟨rfl, rfl⟩
    have e' : step env w (.answer (Spec.Modify.done tag message creds)) = ⟨{ w.entry with remote := d, journal := [] }, []⟩ := by
      simp only [step, hp, e, hms.2]
    rw [e', hms.1]
    refine ⟨h.alive, h.attrs, hc.tidy, ?_, hc.content, .inl rfl⟩
    exact same_trans (same_trans (effects_same h.server) h.inStep) (same_symm hc.content)
  | @refused w c msg es w' c' hr _ ih =>
    refine ih (fun x hx => hs x (List.mem_cons_of_mem _ hx)) ?_
    obtain ⟨h1, _⟩ := commit_refused (env := env) w.entry msg hr
    simp only [step]
    split
    · exact h
    · rename_i ms rest hp
      rw [h1]
      refine ⟨h.alive, h.attrs, h.remote, h.server, h.inStep, .inl ?_⟩
      rcases h.pending with h' | h'
      · rw [hp] at h'; cases h'
      · rw [hp] at h'; cases h'; rfl

/-- **C50** Whatever is edited, undone, committed, carried out and refused: the entry knows what the server has, and the
recorded edits lead from there to the local view. -/
theorem in_step_partial (hU : Sane env.U) (hV : V.Fine) (hP : V.Plain) (s : St) (hj : s.journal = []) (hr : s.remote = s.attrs)
    (hd : V.Tidy s.attrs) (ha : s.deleted = false) {es : List Event} (hs : Spoken V es) {w' : World} {c' : Content}
    (ht : Calm env ⟨s, []⟩ (content s.attrs) es w' c') :
    Same c' (content w'.entry.remote) ∧ Same (effects (w'.entry.journal.map change) c') (content w'.entry.attrs) := by
  have h0 : Known V ⟨s, []⟩ (content s.attrs) :=
    ⟨ha, hd, by rw [hr]; exact hd, by rw [hr]; exact fun _ _ => Iff.rfl, by unfold InStep; rw [hj, hr]; exact fun _ _ => Iff.rfl, .inl rfl⟩
  have h := known hU hV hP ht hs h0
  exact ⟨h.server, same_trans (effects_same h.server) h.inStep⟩

/-! ### Where it fails -/

/-- **C50 fails** for edits made while a commit is in flight.  When the answer comes, the edit is struck from the record
although it was not in the request, and the entry takes it for server state. -/
theorem inflight_lost (hU : Sane env.U) (hV : V.Fine) (hP : V.Plain) (s : St) (hd : V.Tidy s.attrs) (ha : s.deleted = false)
    (hj : s.journal ≠ []) (h : InStep s) (e : Edit) (he : V.Speaks e) (hch : ¬ Same (content (edit env.U s e).1.attrs) (content s.attrs))
    (tag : UInt8) (message creds : PyVal) :
    ∃ s', run env ⟨s, []⟩ [.commit, .edit e, .answer (done tag message creds)] = ⟨s', []⟩ ∧ s'.journal = [] ∧
      commit s' = .ok none ∧
      Same (content s'.remote) (content s'.attrs) ∧
      ¬ Same (content s'.remote) (effects (s.journal.map change) (content s.remote)) := by
  obtain ⟨h1, _, _⟩ := edit_inStep hU hV hd h he
  have hal : (edit env.U s e).1.deleted = false := (edit_alive hU hV hd he).trans ha
  obtain ⟨d, e', hc⟩ := done_eq hU hP (edit env.U s e).1 h1 hal tag message creds
  refine ⟨{ (edit env.U s e).1 with remote := d, journal := [] }, ?_, rfl, ?_, hc.content, fun hsame => hch ?_⟩
  · have e1 : step env ⟨s, []⟩ .commit = ⟨s, [s.journal]⟩ := by simp [step, Syntax.commit, ha, hj]
    show step env (step env (step env ⟨s, []⟩ .commit) (.edit e)) (.answer (done tag message creds)) = _
    rw [e1]
    show (⟨(committed env (edit env.U s e).1 (done tag message creds)).1, []⟩ : World) = _
    rw [e']
  · simp [Syntax.commit, hal]
  · exact same_trans (same_trans (same_symm hc.content) hsame) h

/-- **C50 fails** for a second commit before the answer to the first: everything is sent again. -/
theorem sent_twice (s : St) (ha : s.deleted = false) (hj : s.journal ≠ []) :
    (run env ⟨s, []⟩ [.commit, .commit]).pending = [s.journal, s.journal] := by
  simp [run, step, Syntax.commit, ha, hj]

/-- An entry from a search, with text added to an attribute. -/
def mixture : St := (edit asciiTables found (.add (bytes "mail") (.text "b@z".toList))).1

/-- **C50 fails** when text and octets are mixed: the server has carried out the request, but the answer raises
`TypeError` and the edits stay recorded, to be sent again. -/
theorem mixed (he : env.U = asciiTables) (tag : UInt8) (message creds : PyVal) :
    committed env mixture (done tag message creds) = (mixture, some (.py .typeError)) ∧
    mixture.journal = [⟨.add, bytes "mail", [.text "b@z".toList]⟩] := by
  refine ⟨?_, by decide +kernel⟩
  have h0 : Server.otherItems asciiTables (Server.sortItems mixture.attrs) = .error .typeError := by decide +kernel
  have h1 : Server.items env ⟨mixture.dn, mixture.attrs⟩ = .error .typeError := by
    simp only [Server.items, he, h0, bind, Except.bind]
  have h2 : mixture.deleted = false := by decide +kernel
  simp only [committed, done, noDn, h1, h2]
  rfl

/-- **C50 fails** when the server state has text and octets for an attribute: `undo` raises and leaves nothing. -/
theorem mixed_undo (he : env.U = asciiTables) (s : St) (ha : s.deleted = false) (hr : s.remote = mixture.attrs) :
    (undo env s).2 = some (.py .typeError) ∧ (undo env s).1.attrs = [] ∧ (undo env s).1.journal = s.journal := by
  have h0 : Server.otherItems asciiTables (Server.sortItems mixture.attrs) = .error .typeError := by decide +kernel
  have h1 : Server.items env ⟨s.dn, s.remote⟩ = .error .typeError := by
    simp only [Server.items, he, hr, h0, bind, Except.bind]
  simp only [undo, ha, h1]
  exact ⟨rfl, rfl, rfl⟩

/-! ### Examples -/

theorem allOctets_plain : allOctets.Plain := fun _ _ _ hv hw => hv.1.trans hw.1.symm
theorem allText_plain : allText.Plain := fun _ _ _ hv hw => hv.trans hw.symm

def env1 : Server.Env := ⟨asciiTables, fun b => b, true, true⟩

/-- A refused commit, an undo, a commit that is carried out, one more edit. -/
def history : List Event :=
  [.edit (.add (bytes "MAIL") (bytes "b@z")), .commit, .answer (.result .modifyResponse 0x47 (.int 50) (.bytes []) (.bytes []) .none), .undo,
   .edit (.clear (bytes "mail")), .commit, .answer (done 0x47 (.bytes []) .none), .edit (.set (bytes "sn") [bytes "Bo"])]

theorem history_spoken : Spoken allOctets history := by
  intro e h
  simp only [history, List.mem_cons, List.not_mem_nil, or_false, reduceCtorEq, false_or, Event.edit.injEq] at h
  rcases h with rfl | rfl | rfl
  · exact change1_speaks _ (by simp [change1])
  · exact change1_speaks _ (by simp [change1])
  · have := change1_speaks (.set (bytes "sn") [bytes "Bo", bytes "Bo"]) (by simp [change1])
    exact ⟨this.1, fun v hv => this.2 v (List.mem_cons_of_mem _ hv)⟩

example : ∃ w' c', Calm env1 ⟨found, []⟩ (content found.attrs) history w' c' ∧
    (w'.entry.journal = [⟨.replace, bytes "sn", [bytes "Bo"]⟩]) ∧
    Same c' (content w'.entry.remote) ∧ Same (effects (w'.entry.journal.map change) c') (content w'.entry.attrs) := by
  have ht : Calm env1 ⟨found, []⟩ (content found.attrs) history (run env1 ⟨found, []⟩ history)
      (effects ([⟨.delete, bytes "mail", []⟩].map change) (content found.attrs)) := by
    refine .edit rfl (.commit rfl (.refused ⟨_, _, _, _, _, by decide, rfl⟩ (.undo ?_ (.edit ?_ (.commit ?_
      (.done (ms := [⟨.delete, bytes "mail", []⟩]) (rest := []) ?_ (.edit ?_ (.nil _ _))))))))
    all_goals decide +kernel
  refine ⟨_, _, ht, by decide +kernel, ?_⟩
  exact in_step_partial asciiTables_sane allOctets_fine allOctets_plain found rfl rfl found_tidy rfl history_spoken ht

/-- An edit while another one is in flight. -/
example : ∃ s', run env1 ⟨(edit asciiTables found (.clear (bytes "mail"))).1, []⟩
      [.commit, .edit (.set (bytes "sn") [bytes "Bo", bytes "Bo"]), .answer (done 0x47 (.bytes []) .none)] = ⟨s', []⟩ ∧ s'.journal = [] ∧
    commit s' = .ok none := by
  have h0 : InStep found := fun _ _ => Iff.rfl
  have hs := change1_speaks (.clear (bytes "mail")) (by simp [change1])
  obtain ⟨h1, h2, _⟩ := edit_inStep asciiTables_sane allOctets_fine found_tidy h0 hs
  obtain ⟨s', h3, h4, h5, _⟩ := inflight_lost (env := env1) asciiTables_sane allOctets_fine allOctets_plain _ h1 (by decide +kernel) (by decide +kernel) h2
    (.set (bytes "sn") [bytes "Bo", bytes "Bo"]) (change1_speaks _ (by simp [change1]))
    (fun h => absurd ((h (Server.ascii "sn") (Server.ascii "Bo")).mp (by decide +kernel)) (by decide +kernel)) 0x47 (.bytes []) .none
  exact ⟨s', h3, h4, h5⟩

end Verif.C50
