import Verif.Props.C37
/-
C38  Losing the connection fails every pending request exactly once.
-/
namespace Verif.C38
open Verif.Ldap Verif.Client Verif.Spec.Client

/-- When a connection is lost every request waiting on it fails exactly once - unless the application has cancelled it,
then it is told nothing more -, no request is left waiting on it, no request of another connection is touched, and
nothing is written to it. -/
theorem lost_fails_all (app : App) (fuel : Nat) (es : List Event) (c : Nat) :
    ∃ l, (run app fuel (es ++ [.lost c])).log = (run app fuel es).log ++ l ∧
      (∀ id p, Waiting (run app fuel es).log c id p → l.countP (Fails p.d) = 1 ∧
        (.dropped p.d ∈ l → Cancelled (run app fuel (es ++ [.lost c])).log p.d)) ∧
      (∀ n ∈ l, (Own n ∧ NotOn c n) ∨ ∃ id p, Waiting (run app fuel es).log c id p ∧
        (n = .fired p.d .lost ∨ n = .dropped p.d)) ∧
      ∀ id p, ¬ Waiting (run app fuel (es ++ [.lost c])).log c id p := by
  rw [C37.run_snoc]
  have hi := run_inv app fuel es
  generalize run app fuel es = w at *
  obtain ⟨hi', hconn, l, hlog, hd⟩ := connectionLost_spec app fuel hi c
  have hmem := drained_mem hd
  have hcnt := drained_count hd (by
    have hsub : ((w.conns c).onwire.map fun e => e.2.d) = ((w.conns c).onwire.map fun e => (c, e.1, e.2)).map fun r => r.2.2.d := by
      rw [List.map_map]; rfl
    rw [hsub]
    have hnd : ((w.conns c).onwire.map fun e => (c, e.1, e.2)).Nodup := by
      have := (hi.wire_sorted c).imp (fun h => Int.ne_of_lt h)
      refine List.Nodup.map ?_ (List.Nodup.of_map _ this)
      intro a b h
      simp only [Prod.mk.injEq, true_and] at h
      exact Prod.ext h.1 h.2
    refine List.Nodup.map_on ?_ hnd
    intro a ha b hb e
    have hx : ∀ r ∈ (w.conns c).onwire.map (fun e => (c, e.1, e.2)), r ∈ requests w.log := by
      intro r hr
      obtain ⟨e, he, rfl⟩ := List.mem_map.mp hr
      exact hi.wire_req c e he
    exact DNodup.unique hi.req_d (hx a ha) (hx b hb) e)
  refine ⟨l, hlog, ?_, ?_, ?_⟩
  · intro id p hw
    have hp := (hi.wire_waiting c id p).mpr hw
    have h1 : l.countP (Fails p.d) = 1 := by
      rw [hcnt, if_pos (List.mem_map.mpr ⟨(id, p), hp, rfl⟩)]
    refine ⟨h1, fun hdrop => ?_⟩
    -- exactly one firing, and it is neither in the old log with another outcome nor among the new failures
    have hlog' : (step app fuel w (.lost c)).log = w.log ++ l := hlog
    have hset : Settled (step app fuel w (.lost c)).log p.d := .inl (by rw [hlog']; exact List.mem_append_right _ hdrop)
    have hdone := ((show Inv none (step app fuel w (.lost c)) from hi').settled_iff p.d).mpr hset
    have hcount := (show Inv none (step app fuel w (.lost c)) from hi').fired_count p.d
    rw [hdone] at hcount
    simp only [expected] at hcount
    have hpos : 0 < timesFired p.d (step app fuel w (.lost c)).log := by omega
    unfold timesFired at hpos
    rw [List.countP_pos_iff] at hpos
    obtain ⟨n, hn, hx⟩ := hpos
    cases n with
    | fired d o =>
      simp only [decide_eq_true_eq] at hx
      subst hx
      by_cases ho : o = .cancelled
      · rw [ho] at hn; exact hn
      · exfalso
        rw [hlog'] at hn
        rcases List.mem_append.mp hn with hn | hn
        · exact hw.2 (.inl (.inr ⟨o, hn, ho⟩))
        · rcases hmem _ hn with ⟨h, _⟩ | ⟨e, he, h | h⟩
          · cases o <;> first | exact ho rfl | exact h.elim
          · -- a second failure
            rw [h] at hn
            have hed : e.2.d = p.d := by simp only [Note.fired.injEq] at h; exact h.1.symm
            rw [hed] at hn
            obtain ⟨l1, l2, rfl⟩ := List.append_of_mem hn
            rw [List.countP_append, List.countP_cons] at h1
            have hf : Fails p.d (.fired p.d .lost) = true := by simp [Fails]
            rw [hf] at h1
            simp only [if_true] at h1
            have h0 : ∀ m ∈ l1 ++ l2, Fails p.d m = false := by
              have hz : (l1 ++ l2).countP (Fails p.d) = 0 := by rw [List.countP_append]; omega
              rw [List.countP_eq_zero] at hz
              intro m hm; simpa using hz m hm
            have hd' : .dropped p.d ∈ l1 ++ l2 := by
              rcases List.mem_append.mp hdrop with h | h
              · exact List.mem_append_left _ h
              · rcases List.mem_cons.mp h with h | h
                · simp at h
                · exact List.mem_append_right _ h
            have := h0 _ hd'
            simp [Fails] at this
          · simp at h
    | _ => simp at hx
  · intro n hn
    rcases hmem n hn with h | ⟨e, he, h⟩
    · exact .inl h
    · exact .inr ⟨e.1, e.2, (hi.wire_waiting c e.1 e.2).mp he, h⟩
  · intro id p hw
    have hi'' : Inv none (step app fuel w (.lost c)) := hi'
    have := (hi''.wire_waiting c id p).mpr hw
    have hc : (step app fuel w (.lost c)).conns c = ⟨false, []⟩ := hconn
    rw [hc] at this
    simp at this

theorem disconnected (app : App) (fuel : Nat) (es es' : List Event) (c : Nat) (h : ∀ e ∈ es', e ≠ .made c) :
    ((run app fuel (es ++ [.lost c] ++ es')).conns c).connected = false ∧
      ∃ l, (run app fuel (es ++ [.lost c] ++ es')).log = (run app fuel (es ++ [.lost c])).log ++ l ∧ ∀ n ∈ l, NotOn c n := by
  induction es' using List.reverseRecOn with
  | nil =>
    refine ⟨?_, [], by simp, by simp⟩
    rw [List.append_nil, C37.run_snoc]
    have := (connectionLost_spec app fuel (run_inv app fuel es) c).2.1
    simp only [step]
    rw [this]
  | append_singleton es' e ih =>
    obtain ⟨hc, l, hl, hn⟩ := ih (fun e he => h e (List.mem_append_left _ he))
    obtain ⟨hc', m, hm, hn'⟩ := step_frame app fuel (run_inv app fuel (es ++ [.lost c] ++ es')) c hc e
      (h e (by simp))
    rw [← List.append_assoc, C37.run_snoc]
    refine ⟨hc', l ++ m, by rw [hm, hl, List.append_assoc], ?_⟩
    intro n hx
    rcases List.mem_append.mp hx with hx | hx
    · exact hn n hx
    · exact hn' n hx

/-- After that nothing is written to the connection and no request is put on it, whatever is tried, until it is connected
again. -/
theorem nothing_written (app : App) (fuel : Nat) (es es' : List Event) (c : Nat) (h : ∀ e ∈ es', e ≠ .made c) :
    ∃ l, (run app fuel (es ++ [.lost c] ++ es')).log = (run app fuel (es ++ [.lost c])).log ++ l ∧ ∀ n ∈ l, NotOn c n :=
  (disconnected app fuel es es' c h).2

/-- The connection a call uses. -/
def uses : Call → Option Nat
  | .send c _ _ | .sendMulti c _ _ | .sendMultiEx c _ _ _ | .sendNoResponse c _ _ | .bind c _ _ | .unbind c => some c
  | .startTLS _ | .cancel _ => none

/-- After that every send on the connection is refused at once, until it is connected again. -/
theorem send_refused (app : App) (fuel : Nat) (es es' : List Event) (c : Nat) (h : ∀ e ∈ es', e ≠ .made c) (x : Call)
    (hx : uses x = some c) :
    (run app fuel (es ++ [.lost c] ++ es' ++ [.app x])).log =
      (run app fuel (es ++ [.lost c] ++ es')).log ++ [.refused c .notConnected] := by
  have hc := (disconnected app fuel es es' c h).1
  rw [C37.run_snoc app fuel (_ ++ _)]
  generalize run app fuel (es ++ [.lost c] ++ es') = w at *
  cases x <;> simp only [uses, Option.some.injEq, reduceCtorEq] at hx <;> subst hx <;>
    cases fuel <;> simp [step, call, sendNew, sendOn, sendNoResponse, prepare, hc, World.note]

example : requests (run C37.quiet 0 [.made 0, .app (.send 0 (.oct .delRequest 0x4a []) none),
      .app (.sendMulti 0 (.oct .delRequest 0x4a []) true), .lost 0]).log =
      [(0, 1, ⟨0, false, false, .plain⟩), (0, 2, ⟨1, false, true, .plain⟩)] ∧
    (run C37.quiet 0 [.made 0, .app (.send 0 (.oct .delRequest 0x4a []) none),
      .app (.sendMulti 0 (.oct .delRequest 0x4a []) true), .lost 0]).log.map (fun n =>
        match n with | .fired d .lost => some d | _ => none) = [none, none, none, none, none, none, some 1, some 0] := by
  decide +kernel

end Verif.C38
