import Verif.Props.C39
/-
C64  What arrived before TLS was switched on is not taken for an answer that came over TLS: false.

The octets that follow the StartTLS response in the same segment stay in `self.buffer` (ldapclient.py:54-65) and are
handled after `transport.startTLS`.
-/
namespace Verif.C64
open Verif.Ldap Verif.Client Verif.Spec.Client Verif.Conn

/-- An application that binds as soon as TLS is on. -/
def bindAfterTLS : App := fun log =>
  match log.getLast? with
  | some (.fired 0 .tls) => ⟨[.bind 0 (.bytes [0x78]) (.bytes [0x79])], false, false⟩
  | _ => ⟨[], false, false⟩

/-- The client after `startTLS()`: its request has been sent. -/
def asking : World := Client.run bindAfterTLS 1 [.made 0, .app (.startTLS 0), .tick]

/-- The StartTLS response, success. -/
def response : Bytes := [0x30, 0x0c, 0x02, 0x01, 0x01, 0x78, 0x07, 0x0a, 0x01, 0x00, 0x04, 0x00, 0x04, 0x00]
/-- A bind response, success, for the request that the application is going to send. -/
def injected : Bytes := [0x30, 0x0c, 0x02, 0x01, 0x02, 0x61, 0x07, 0x0a, 0x01, 0x00, 0x04, 0x00, 0x04, 0x00]

def isAgreement : Py (Option Obj × Nat) → Bool
  | .ok (some (.message (.int 1) (.extResponse 0x58 (.int 0) (.bytes []) (.bytes []) .none .none) none), 14) => true
  | _ => false

def isBound : Py (Option Obj × Nat) → Bool
  | .ok (some (.message (.int 2) (.result .bindResponse 0x41 (.int 0) (.bytes []) (.bytes []) .none) none), 14) => true
  | _ => false

theorem decode_response : berDecodeObject topCtx (response ++ injected) = .ok (some (.message (.int 1) C39.agreement none), 14) := by
  have h : isAgreement (berDecodeObject topCtx (response ++ injected)) = true := by decide +kernel
  unfold isAgreement at h
  split at h
  · assumption
  · simp at h

theorem decode_injected : berDecodeObject topCtx injected =
    .ok (some (.message (.int 2) (.result .bindResponse 0x41 (.int 0) (.bytes []) (.bytes []) .none) none), 14) := by
  have h : isBound (berDecodeObject topCtx injected) = true := by decide +kernel
  unfold isBound at h
  split at h
  · assumption
  · simp at h

/-- What of a log matters here. -/
inductive Mark where
  | tls (c : Nat)
  | sent (id : Int)
  | bound (d : Nat)
  deriving DecidableEq

def marks (log : List Note) : List Mark := log.filterMap fun n =>
  match n with
  | .startedTLS c => some (.tls c)
  | .sent _ id _ _ => some (.sent id)
  | .fired d (.bound _ _) => some (.bound d)
  | _ => none

/-- One segment, received in the clear: TLS is switched on, the application sends its bind request, and the second half of
the segment - received before TLS was on, and before the request was sent - is taken for the answer to it. -/
theorem plaintext_accepted :
    marks asking.log = [.sent 1] ∧
    marks (dataReceived (fun w o => handle bindAfterTLS 1 w 0 o) ⟨[], asking, false⟩ (response ++ injected)).st.log =
      [.sent 1, .tls 0, .sent 2, .bound 1] := by
  refine ⟨by decide +kernel, ?_⟩
  simp only [dataReceived, Bool.false_eq_true, if_false, List.nil_append]
  rw [pump_some decode_response, if_neg (by decide +kernel)]
  have hd : (response ++ injected).drop 14 = injected := by decide
  simp only [hd]
  rw [pump_some decode_injected, if_neg (by decide +kernel)]
  have he : injected.drop 14 = [] := by decide
  simp only [he]
  rw [pump_none (n := 0) (berDecodeObject_nil _)]
  decide +kernel

end Verif.C64
