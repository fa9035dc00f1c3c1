import Verif.Lemmas.Conn
import Verif.Lemmas.RoundtripOp
/-
What is written at one end arrives at the other, however the network splits it.
-/
namespace Verif.Conn
open Verif.Ldap Verif.Spec

/-- Octets and the messages they decode to. -/
inductive Carries : Bytes → List Obj → Prop where
  | nil : Carries [] []
  | cons {w b o os} : Dec topCtx w o → Carries b os → Carries (w ++ b) (o :: os)

theorem lookup_top {t : UInt8} {cls : Cls} (h : topCtx.lookup t = some cls) : t = 0x10 := by
  have h : (if t = 0x10 then some Cls.message else none) = some cls := h
  split at h
  · assumption
  · cases h

theorem dec_tag {w : Bytes} {o : Obj} (h : Dec topCtx w o) : tagOf w = 0x10 := by
  obtain ⟨⟨a, c, hh, hn, hle⟩, hd⟩ := h
  rw [berDecodeObject_complete topCtx hh (by omega)] at hd
  split at hd
  · rename_i cls hl
    exact lookup_top hl
  · cases hd

theorem Carries.stream {b : Bytes} {os : List Obj} (h : Carries b os) : MessageStream b := by
  induction h with
  | nil =>
    refine .rest _ ?_
    rintro n ⟨_, _, h, _⟩
    cases h
  | cons hd _ ih => exact .cons _ _ hd.1 (dec_tag hd) ih

theorem run_carries {σ : Type} (handle : Handler σ) {b : Bytes} {os : List Obj} (h : Carries b os) (s : σ) :
    (run handle ⟨b, s, false⟩).st = (handAll handle s os).1 ∧ (run handle ⟨b, s, false⟩).dead = (handAll handle s os).2 := by
  induction h generalizing s with
  | nil => rw [run_nil rfl]; exact ⟨rfl, rfl⟩
  | cons hd hc ih =>
    rename_i w b o os
    have h1 : berDecodeObject topCtx (w ++ b) = .ok (some o, w.length) := by
      rw [berDecodeObject_append _ hd.1]; exact hd.2
    rw [run_some (c := ⟨w ++ b, s, false⟩) h1, handAll]
    simp only [List.drop_left]
    split
    · exact ⟨rfl, rfl⟩
    · exact ih _

/-- Whatever the segments, the program is handed the messages. -/
theorem feed_carries {σ : Type} (handle : Handler σ) {b : Bytes} {os : List Obj} (h : Carries b os) (s : σ) {segs : List Bytes}
    (hs : segs.flatten = b) :
    (feed handle (fresh s) segs).st = (handAll handle s os).1 ∧ (feed handle (fresh s) segs).dead = (handAll handle s os).2 := by
  have e := ideal_feed handle segs [] (fresh s)
  rw [feed_stable handle segs (fresh s) rfl (run_nil rfl) (by rw [hs]; exact h.stream), hs, List.append_nil] at e
  have h2 : ideal handle (fresh s) b = run handle ⟨b, s, false⟩ := by rw [ideal_alive rfl]; rfl
  rw [h2] at e
  rw [e.1, e.2.1]
  exact run_carries handle h s

theorem carries_wires (ms : List Msg) (hwf : ∀ m ∈ ms, m.op.WF) {b : Bytes} (h : Wires (ms.map Msg.build) b) :
    Carries b (ms.map fun m => .message (.int m.id) (received m.op) (m.controls.map (·.map Control.decoded))) := by
  induction ms generalizing b with
  | nil => cases h; exact .nil
  | cons m ms ih =>
    cases h with
    | cons hw h =>
      obtain ⟨o, rfl, ho, _⟩ := dec_message m (hwf m List.mem_cons_self) hw
      exact .cons ho (ih (fun x hx => hwf x (List.mem_cons_of_mem _ hx)) h)

theorem readMsg_received (m : Msg) (hwf : m.op.WF) {w : Bytes} (h : toWire m.build = .ok w) :
    readMsg (.message (.int m.id) (received m.op) (m.controls.map (·.map Control.decoded))) = some m := by
  obtain ⟨o, rfl, _, h⟩ := dec_message m hwf h
  exact h

end Verif.Conn
