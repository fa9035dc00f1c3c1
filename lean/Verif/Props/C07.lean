import Verif.Lemmas.Transport
import Verif.Props.C06
/-
C07  How TCP splits the stream does not change what the peer handles.

Full statement: for every handler, every two segmentations of the same stream leave the same state of the program and
the same fate of the connection.  It is false: after a complete element with a tag that is not an LDAP message the loop
stops, so messages behind it in the same segment wait for the next segment (`segmentation_matters`).
Proved: the full statement for streams in which every complete top-level element is an LDAP message
(`segmentation_independent_partial`), and for all streams that what is not handled yet is still waiting in the buffer,
in order (`nothing_lost`).
Missing: nothing but the case refuted by the witness.
-/
namespace Verif.C07
open Verif.Ldap Verif.Spec Verif.Conn

/-- The full statement. -/
def SegmentationIndependent (stream : Bytes) : Prop :=
  ∀ (σ : Type) (handle : Handler σ) (s : σ) (segs segs' : List Bytes), segs.flatten = stream → segs'.flatten = stream →
    (feed handle (fresh s) segs).st = (feed handle (fresh s) segs').st ∧
    (feed handle (fresh s) segs).dead = (feed handle (fresh s) segs').dead

/-- Any program on top of the connection ends in the same state, and the connection meets the same fate, however the
stream is split, provided the stream carries LDAP messages only. -/
theorem segmentation_independent_partial (stream : Bytes) (hs : MessageStream stream) :
    SegmentationIndependent stream := by
  intro σ handle s segs segs' h h'
  have e1 := ideal_feed handle segs [] (fresh s)
  have e2 := ideal_feed handle segs' [] (fresh s)
  rw [feed_stable handle segs (fresh s) rfl (run_nil rfl) (by rw [h]; exact hs)] at e1
  rw [feed_stable handle segs' (fresh s) rfl (run_nil rfl) (by rw [h']; exact hs)] at e2
  rw [h] at e1; rw [h'] at e2
  have := e1.trans e2.symm
  exact ⟨this.1, this.2.1⟩

/-- A handler that just writes down the messages it is given. -/
def logger : Handler (List Obj) := fun l o => (l ++ [o], false)

/-- What one end writes, the other is given: whatever messages are written, and however the network splits them, the program
at the other end is handed the same messages, in order, until it raises. -/
theorem delivered (ms : List Msg) (hwf : ∀ m ∈ ms, m.op.WF) (stream : Bytes) (h : Wires (ms.map Msg.build) stream) :
    ∃ os : List Obj, os.map readMsg = ms.map some ∧
      ∀ (σ : Type) (handle : Handler σ) (s : σ) (segs : List Bytes), segs.flatten = stream →
        (feed handle (fresh s) segs).st = (handAll handle s os).1 ∧ (feed handle (fresh s) segs).dead = (handAll handle s os).2 := by
  refine ⟨_, ?_, fun σ handle s segs hs => feed_carries handle (carries_wires ms hwf h) s hs⟩
  induction ms generalizing stream with
  | nil => rfl
  | cons m ms ih =>
    cases h with
    | cons hw h =>
      simp only [List.map_cons, readMsg_received m (hwf m List.mem_cons_self) hw]
      rw [ih (fun x hx => hwf x (List.mem_cons_of_mem _ hx)) _ h]

example : Wires ([⟨1, .unbind, none⟩, ⟨2, .delete [0x61], none⟩].map Msg.build)
    [0x30, 0x05, 0x02, 0x01, 0x01, 0x42, 0x00, 0x30, 0x06, 0x02, 0x01, 0x02, 0x4a, 0x01, 0x61] :=
  .cons (w := [0x30, 0x05, 0x02, 0x01, 0x01, 0x42, 0x00]) (by decide +kernel) (.cons (b := []) (w := [0x30, 0x06, 0x02, 0x01, 0x02, 0x4a, 0x01, 0x61])
    (by decide +kernel) .nil)

/-- A message (an unbind request). -/
def unbindMsg : Bytes := [0x30, 0x05, 0x02, 0x01, 0x01, 0x42, 0x00]

/-- A complete element that is not an LDAP message. -/
def stranger : Bytes := [0x9E, 0x01, 0x00]

example : MessageStream (unbindMsg ++ (unbindMsg ++ [0x30])) :=
  .cons _ _ ⟨2, 5, rfl, rfl, by decide⟩ rfl (.cons _ _ ⟨2, 5, rfl, rfl, by decide⟩ rfl (.rest _ (by
    rintro n ⟨_, _, h, _⟩; cases h)))

/-- The unrestricted statement is false: a stray element and a message arriving together leave the message unhandled,
arriving apart they do not. -/
theorem segmentation_matters : ¬ ∀ stream, SegmentationIndependent stream := by
  intro h
  have := (h (stranger ++ unbindMsg) _ logger [] [stranger ++ unbindMsg] [stranger, unbindMsg] rfl rfl).1
  have hl := congrArg List.length this
  revert hl
  decide +kernel

/-- Whatever the stream and its segmentation: receiving the unhandled rest of the buffer on a connection that does not
stop at strangers (`Conn.ideal`) brings the program exactly where receiving the whole stream would have brought it.
So messages are handled in order, none twice, and those not handled yet are not lost. -/
theorem nothing_lost {σ : Type} (handle : Handler σ) (s : σ) (segs : List Bytes) :
    (ideal handle (feed handle (fresh s) segs) []).st = (ideal handle (fresh s) segs.flatten).st ∧
    (ideal handle (feed handle (fresh s) segs) []).dead = (ideal handle (fresh s) segs.flatten).dead := by
  have := ideal_feed handle segs [] (fresh s)
  rw [List.append_nil] at this
  exact ⟨this.1, this.2.1⟩

example : (ideal logger (fresh []) (stranger ++ unbindMsg)).st.length = 1 := by decide +kernel

theorem topCtx_message {t : UInt8} {cls : Cls} (h : topCtx.lookup t = some cls) : t = 0x10 := by
  simp only [topCtx, Ctx.lookup, identities] at h
  split at h
  · rename_i hk; rw [Option.some.injEq] at h; exact (by simpa using hk)
  · cases h

/-- End to end: the messages written by a sender arrive at the receiver's handler as the same messages, in the same
order, each exactly once, for every segmentation of the stream. -/
theorem messages_delivered (ms : List (Msg × Bytes))
    (hms : ∀ p ∈ ms, p.1.op.WF ∧ toWire p.1.build = .ok p.2) (segs : List Bytes)
    (hseg : segs.flatten = (ms.map (·.2)).flatten) :
    (feed logger (fresh []) segs).st.map readMsg = ms.map (fun p => some p.1) ∧
    (feed logger (fresh []) segs).dead = false := by
  have hstream : MessageStream (ms.map (·.2)).flatten := by
    clear hseg
    induction ms with
    | nil => exact .rest _ (by rintro n ⟨_, _, h, _⟩; cases h)
    | cons p ms ih =>
      obtain ⟨hwf, hw⟩ := hms p (by simp)
      have hel := toWire_isElement hw
      rw [List.map_cons, List.flatten_cons]
      refine .cons _ _ hel ?_ (ih fun q hq => hms q (by simp [hq]))
      obtain ⟨o, ho, _⟩ := C06.message_roundtrip_partial p.1 hwf p.2 [] hw
      rw [List.append_nil] at ho
      cases hl : topCtx.lookup (tagOf p.2) with
      | none => rw [berDecodeObject_unknown _ hel hl] at ho; cases ho
      | some c => exact topCtx_message hl
  have hone : ∀ (ms : List (Msg × Bytes)) (l : List Obj),
      (∀ p ∈ ms, p.1.op.WF ∧ toWire p.1.build = .ok p.2) →
      (feed logger (fresh l) (ms.map (·.2))).st.map readMsg = l.map readMsg ++ ms.map (fun p => some p.1) ∧
      (feed logger (fresh l) (ms.map (·.2))).dead = false := by
    intro ms
    induction ms with
    | nil => intro l _; exact ⟨(List.append_nil _).symm, rfl⟩
    | cons p ms ih =>
      intro l h
      obtain ⟨hwf, hw⟩ := h p (by simp)
      obtain ⟨o, ho, hr⟩ := C06.message_roundtrip_partial p.1 hwf p.2 [] hw
      rw [List.append_nil] at ho
      have hd : dataReceived logger (fresh l) p.2 = fresh (l ++ [o]) := by
        have h1 : dataReceived logger (fresh l) p.2 = pump logger ⟨p.2, l, false⟩ := rfl
        rw [h1, pump_some ho]
        simp only [logger, List.drop_length, Bool.false_eq_true, ↓reduceIte]
        rw [pump_none (n := 0) (berDecodeObject_nil _)]
        rfl
      have hf : feed logger (fresh l) ((p :: ms).map (·.2)) =
          feed logger (dataReceived logger (fresh l) p.2) (ms.map (·.2)) := rfl
      rw [hf, hd]
      have := ih (l ++ [o]) (fun q hq => h q (by simp [hq]))
      rw [this.1]
      exact ⟨by simp [hr], this.2⟩
  have hind := segmentation_independent_partial _ hstream _ logger [] segs (ms.map (·.2)) hseg rfl
  rw [hind.1, hind.2]
  have := hone ms [] hms
  exact ⟨by simpa using this.1, this.2⟩

example : ∀ p ∈ [((⟨1, .unbind, none⟩ : Msg), unbindMsg), (⟨1, .unbind, none⟩, unbindMsg)],
    p.1.op.WF ∧ toWire p.1.build = .ok p.2 := by
  intro p hp
  simp only [List.mem_cons, List.not_mem_nil, or_false, or_self] at hp
  subst hp
  exact ⟨trivial, by decide +kernel⟩

end Verif.C07
