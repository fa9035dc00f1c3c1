import Verif.Lemmas.Client
/-
Which operations are registered as waiting for an answer.
-/
namespace Verif.Client
open Verif.Ldap

/-- The requests in the log are of kinds that are answered. -/
structure Answered (w : World) : Prop where
  all : ∀ n ∈ w.log, ∀ c id p op, n = .sent c id p op → needsAnswer op = some true

theorem Answered.note {w : World} (h : Answered w) {n : Note} (hn : ∀ c id p op, n = .sent c id p op → needsAnswer op = some true) :
    Answered (w.note n) := by
  refine ⟨fun m hm => ?_⟩
  rcases List.mem_append.mp hm with hm | hm
  · exact h.all m hm
  · rw [List.mem_singleton.mp hm]; exact hn

theorem Answered.quiet {w : World} (h : Answered w) {n : Note} (hn : ∀ c id p op, n ≠ .sent c id p op) : Answered (w.note n) :=
  h.note fun c id p op e => absurd e (hn c id p op)

theorem Answered.write {w : World} (h : Answered w) (c : Nat) (id : Int) (op : Obj) (cs : Controls) : Answered (write w c id op cs) := by
  unfold Client.write
  split <;> exact h.quiet (by simp)

theorem Answered.prepare {w w' : World} (h : Answered w) {c : Nat} {id : Int} (hp : prepare w c = some (id, w')) : Answered w' := by
  unfold Client.prepare at hp
  split at hp
  · cases hp
    exact Answered.quiet (w := { w with nextId := w.nextId + 1 }) ⟨h.all⟩ (by simp)
  · cases hp

theorem Answered.sendOn {w : World} (h : Answered w) (c : Nat) (op : Obj) (cs : Controls) (p : Pending) : Answered (sendOn w c op cs p) := by
  unfold Client.sendOn
  split
  · exact h.quiet (by simp)
  · rename_i id w' hp
    have h' := h.prepare hp
    split
    · exact h'.quiet (by simp)
    · split
      · rename_i ho
        refine Answered.write (Answered.note (w := register w' c id p) ⟨h'.all⟩ ?_) ..
        intro _ _ _ _ e
        cases e
        exact ho
      · exact h'.quiet (by simp)

theorem Answered.sendNew {w : World} (h : Answered w) (c : Nat) (op : Obj) (cs : Controls) (r hd : Bool) (ch : Chain) :
    Answered (sendNew w c op cs r hd ch) :=
  Answered.sendOn (w := { w with deferreds := w.deferreds ++ [.waiting] }) ⟨h.all⟩ ..

theorem Answered.sendNoResponse {w : World} (h : Answered w) (c : Nat) (op : Obj) (cs : Controls) :
    Answered (sendNoResponse w c op cs) := by
  unfold Client.sendNoResponse
  split
  · exact h.quiet (by simp)
  · rename_i id w' hp
    have h' := h.prepare hp
    split
    · exact h'.quiet (by simp)
    · split
      · exact h'.write ..
      · exact h'.quiet (by simp)

theorem Answered.call (app : App) : ∀ (fuel : Nat) {w : World}, Answered w → ∀ x : Call, Answered (call app fuel w x) := by
  intro fuel
  induction fuel with
  | zero =>
    intro w h x
    cases x with
    | send => exact h.sendNew ..
    | sendMulti => exact h.sendNew ..
    | sendMultiEx => exact h.sendNew ..
    | sendNoResponse => exact h.sendNoResponse ..
    | bind => exact h.sendNew ..
    | unbind c =>
      simp only [Client.call]
      split
      · exact (h.sendNoResponse ..).quiet (by simp)
      · exact h.quiet (by simp)
    | startTLS => exact ⟨h.all⟩
    | cancel => exact h
  | succ fuel ih =>
    intro w h x
    cases x with
    | send => exact h.sendNew ..
    | sendMulti => exact h.sendNew ..
    | sendMultiEx => exact h.sendNew ..
    | sendNoResponse => exact h.sendNoResponse ..
    | bind => exact h.sendNew ..
    | unbind c =>
      simp only [Client.call]
      split
      · exact (h.sendNoResponse ..).quiet (by simp)
      · exact h.quiet (by simp)
    | startTLS => exact ⟨h.all⟩
    | cancel d =>
      simp only [Client.call]
      split
      · have h1 : Answered ((w.setD d .cancelled).note (.fired d .cancelled)) := Answered.quiet (w := w.setD d .cancelled) ⟨h.all⟩ (by simp)
        generalize (app _).calls = l
        revert h1
        generalize ((w.setD d .cancelled).note (.fired d .cancelled)) = w1
        intro h1
        induction l generalizing w1 with
        | nil => exact h1
        | cons x l ih' => exact ih' _ (ih h1 x)
      · exact h

theorem Answered.calls {w : World} (h : Answered w) (app : App) (fuel : Nat) (l : List Call) :
    Answered (l.foldl (Client.call app fuel) w) := by
  induction l generalizing w with
  | nil => exact h
  | cons x l ih => exact ih (h.call app fuel x)

theorem Answered.fire {w : World} (h : Answered w) (app : App) (fuel : Nat) (d : Nat) (o : Outcome) : Answered (fire app fuel w d o).1 := by
  unfold Client.fire
  split
  · exact (Answered.quiet (w := w.setD d .done) (n := .fired d o) ⟨h.all⟩ (by simp)).calls ..
  · exact Answered.quiet (w := w.setD d .done) ⟨h.all⟩ (by simp)
  · exact h

theorem Answered.deliver {w : World} (h : Answered w) (app : App) (fuel : Nat) (c : Nat) (p : Pending) (op : Obj) (cs : Controls) :
    Answered (deliver app fuel w c p op cs).1 := by
  unfold Client.deliver
  split
  · exact h.fire ..
  · exact h.fire ..
  · split
    · split
      · exact (h.quiet (n := .startedTLS c) (by simp)).fire ..
      · exact h.fire ..
    · exact h.fire ..

theorem Answered.handle {w : World} (h : Answered w) (app : App) (fuel : Nat) (c : Nat) (msg : Obj) :
    Answered (handle app fuel w c msg).1 := by
  unfold Client.handle
  split
  · split
    · exact h
    · split
      · split
        · exact h.quiet (by simp)
        · split
          · exact h
          · rename_i p _
            split
            · have := h.deliver app fuel c p
              split
              · rename_i e; have := e ▸ this _ _; exact this
              · rename_i e; have := e ▸ this _ _; exact ⟨this.all⟩
            · have h1 : ∀ op cs, Answered (w.note (.handled p.d op cs)) := fun op cs => h.quiet (by simp)
              dsimp only
              generalize (if p.returnControls = true then some _ else none) = cs
              split
              · exact (h1 _ _).calls ..
              · split
                · exact Answered.quiet (w := forget _ _ _) ⟨((h1 _ _).calls ..).all⟩ (by simp)
                · exact (h1 _ _).calls ..
      · exact h
  · exact h

theorem Answered.drain (app : App) (fuel : Nat) (c : Nat) : ∀ (n : Nat) {w : World}, Answered w → Answered (drain app fuel n w c) := by
  intro n
  induction n with
  | zero => exact fun h => h
  | succ n ih =>
    intro w h
    unfold Client.drain
    split
    · exact h
    · rename_i x p _
      have h1 : Answered (Client.fire app fuel (w.setConn c { w.conns c with onwire := (w.conns c).onwire.dropLast }) p.d .lost).1 :=
        Answered.fire (w := w.setConn c { w.conns c with onwire := (w.conns c).onwire.dropLast }) ⟨h.all⟩ ..
      dsimp only
      split
      · rename_i e; rw [e] at h1; exact h1
      · rename_i e; rw [e] at h1; exact ih h1

theorem Answered.step {w : World} (h : Answered w) (app : App) (fuel : Nat) (e : Event) : Answered (step app fuel w e) := by
  cases e with
  | made c => exact ⟨h.all⟩
  | received c msg => exact h.handle ..
  | lost c => exact Answered.drain (w := w.setConn c { w.conns c with connected := false }) app fuel c _ ⟨h.all⟩
  | tick =>
    simp only [Client.step]
    split
    · exact h
    · rename_i c d rest _
      have h1 : Answered { w with delayed := rest } := ⟨h.all⟩
      unfold runStartTLS
      split
      · exact h1.fire ..
      · split
        · exact h1.fire ..
        · split
          · exact h1.fire ..
          · exact h1.sendOn ..
  | app x => exact h.call ..

theorem run_answered (app : App) (fuel : Nat) (es : List Event) : Answered (run app fuel es) := by
  unfold run
  have : ∀ (es : List Event) (w : World), Answered w → Answered (es.foldl (step app fuel) w) := by
    intro es
    induction es with
    | nil => exact fun w h => h
    | cons e es ih => exact fun w h => ih _ (h.step app fuel e)
  exact this es _ ⟨by intro n hn; cases hn⟩

end Verif.Client
