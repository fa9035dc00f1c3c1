import Verif.Lemmas.Stall
import Verif.Props.C06
/-
C08  A completely received malformed message does not stall the connection.

Full statement: for every complete outer frame, after it has been received the connection has handled it, skipped it or
been dropped.  It is false: when a length inside the frame points beyond the frame, the decoder reports "insufficient
data" and the connection waits for bytes that cannot help (`malformed_frame_stalls`).
Proved: the statement for every frame whose inner lengths are consistent (`frame_consumed_partial`), in particular for
everything a sender using this library writes (`encoded_frame_consumed`).
Missing: nothing but the case refuted by the witness.
-/
namespace Verif.C08
open Verif.Ldap Verif.Spec Verif.Conn

/-- The full statement for one frame: having received it, the connection is dropped or no longer holds it back. -/
def FrameConsumed (w : Bytes) : Prop :=
  ∀ (σ : Type) (handle : Handler σ) (s : σ),
    (feed handle (fresh s) [w]).dead = true ∨ (feed handle (fresh s) [w]).buffer = []

theorem consumed_of_decode (w : Bytes) (hw : IsElement w) (hn : berDecodeObject topCtx w ≠ .error .insufficientData) :
    FrameConsumed w := by
  intro σ handle s
  have hf : feed handle (fresh s) [w] = pump handle ⟨w, s, false⟩ := rfl
  rw [hf]
  cases hd : berDecodeObject topCtx w with
  | error e => left; rw [pump_error hd (by rintro rfl; exact hn hd)]
  | ok v =>
    obtain ⟨o, n⟩ := v
    have hnl := berDecodeObject_consumes topCtx hw hd
    subst hnl
    cases o with
    | none => right; rw [pump_none hd]; simp
    | some o =>
      rw [pump_some hd]
      simp only [List.drop_length]
      cases (handle s o).2 with
      | true => left; rfl
      | false =>
        right
        simp only [Bool.false_eq_true, ↓reduceIte]
        rw [pump_none (n := 0) (berDecodeObject_nil _)]
        rfl

/-- Every complete frame with arbitrary content is consumed, unless a length inside it does not fit. -/
theorem frame_consumed_partial (w : Bytes) (hw : IsElement w) (hfit : lengthsFit w.length topCtx w = true) :
    FrameConsumed w :=
  consumed_of_decode w hw (NI.of_lengthsFit _ _ _ hfit).1.ne

-- a frame whose lengths fit but which is not an LDAP message, and a bind request with a password that looks like an
-- unfinished element
example : IsElement [0x30, 0x03, 0x02, 0x01, 0x05] ∧ lengthsFit 5 topCtx [0x30, 0x03, 0x02, 0x01, 0x05] = true :=
  ⟨⟨2, 3, rfl, rfl, by decide⟩, by decide⟩
example : IsElement [48, 14, 2, 1, 1, 0x60, 9, 2, 1, 3, 4, 0, 0x80, 2, 0x30, 0x7F] ∧
    lengthsFit 16 topCtx [48, 14, 2, 1, 1, 0x60, 9, 2, 1, 3, 4, 0, 0x80, 2, 0x30, 0x7F] = true :=
  ⟨⟨2, 14, rfl, rfl, by decide⟩, by decide⟩

/-- Everything a sender using this library writes is consumed. -/
theorem encoded_frame_consumed (m : Msg) (hwf : m.op.WF) (w : Bytes) (h : toWire m.build = .ok w) :
    FrameConsumed w := by
  apply consumed_of_decode w (toWire_isElement h)
  obtain ⟨o, ho, _⟩ := C06.message_roundtrip_partial m hwf w [] h
  rw [List.append_nil] at ho
  rw [ho]; intro h; cases h

example : (⟨1, .delete [0x61], none⟩ : Msg).op.WF ∧
    toWire (⟨1, .delete [0x61], none⟩ : Msg).build = .ok [0x30, 6, 2, 1, 1, 0x4A, 1, 0x61] :=
  ⟨trivial, by decide +kernel⟩

/-- A SEQUENCE of three content octets: an INTEGER that announces five. -/
def bad : Bytes := [0x30, 0x03, 0x02, 0x05, 0x00]

/-- The unrestricted statement is false, and in the worst way: after one such frame the connection never handles
anything and is never dropped, whatever arrives. -/
theorem malformed_frame_stalls : IsElement bad ∧ ¬ FrameConsumed bad ∧
    ∀ (σ : Type) (handle : Handler σ) (s : σ) (segs : List Bytes),
      feed handle (fresh s) (bad :: segs) = ⟨bad ++ segs.flatten, s, false⟩ := by
  have hel : IsElement bad := ⟨2, 3, rfl, rfl, by decide⟩
  have hdec : ∀ rest, berDecodeObject topCtx (bad ++ rest) = .error .insufficientData := by
    intro rest
    rw [berDecodeObject_append _ hel]
    rfl
  have hstuck : ∀ (σ : Type) (handle : Handler σ) (s : σ) (segs : List Bytes) (pre : Bytes),
      feed handle ⟨bad ++ pre, s, false⟩ segs = ⟨bad ++ (pre ++ segs.flatten), s, false⟩ := by
    intro σ handle s segs
    induction segs with
    | nil => intro pre; simp [feed]
    | cons x xs ih =>
      intro pre
      have h1 : dataReceived handle ⟨bad ++ pre, s, false⟩ x = pump handle ⟨bad ++ pre ++ x, s, false⟩ := rfl
      have h2 : feed handle ⟨bad ++ pre, s, false⟩ (x :: xs) =
          feed handle (dataReceived handle ⟨bad ++ pre, s, false⟩ x) xs := rfl
      rw [h2, h1, List.append_assoc, pump_insufficient (hdec _), ih]
      simp only [List.flatten_cons, List.append_assoc]
  have hall : ∀ (σ : Type) (handle : Handler σ) (s : σ) (segs : List Bytes),
      feed handle (fresh s) (bad :: segs) = ⟨bad ++ segs.flatten, s, false⟩ := by
    intro σ handle s segs
    have h1 : dataReceived handle (fresh s) bad = pump handle ⟨bad ++ [], s, false⟩ := rfl
    have h2 : feed handle (fresh s) (bad :: segs) = feed handle (dataReceived handle (fresh s) bad) segs := rfl
    rw [h2, h1, pump_insufficient (hdec _), hstuck]
    rfl
  refine ⟨hel, ?_, hall⟩
  intro h
  rcases h Unit (fun _ _ => ((), false)) () with h | h
  · rw [hall] at h; cases h
  · rw [hall] at h; cases h

end Verif.C08
