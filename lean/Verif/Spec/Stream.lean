import Verif.Spec.Element
import Verif.Model.Conn
/-
Specification vocabulary for byte streams made of elements.
-/
namespace Verif.Spec

/-- Every complete element at the start of the stream, one after the other, is an LDAP message envelope (a SEQUENCE);
an incomplete rest is arbitrary. -/
inductive MessageStream : Bytes → Prop where
  | rest (m : Bytes) : (∀ n, ¬ StartsWithElement m n) → MessageStream m
  | cons (w rest : Bytes) : IsElement w → tagOf w = 0x10 → MessageStream rest → MessageStream (w ++ rest)

open Verif.Ldap in
/-- Which kinds of elements are structures (made of elements), and the tag table in force inside them.  Integers,
strings and the like have arbitrary content. -/
def insideTable (c : Cls) (ctx : Ctx) : Option Ctx :=
  match c with
  | .boolean | .mraDn | .integer | .enumerated | .abandonRequest => none
  | .octetString | .ldapString | .saslCreds | .newSuperior | .delRequest | .fPresent
  | .subInitial | .subAny | .subFinal | .mraRule | .mraType | .mraValue
  | .responseName | .response | .pmUser | .pmOld | .pmNew => none
  | .null | .unbindRequest => none
  | .sequence | .set | .referral | .message | .ava | .fEq | .fGe | .fLe | .fApprox | .control
  | .modifyRequest | .addRequest => some ctx
  | .bindRequest => some (.fb .bindRequest ctx)
  | .searchResultReference => some (.fb .searchReference ctx)
  | .searchResultDone | .modifyResponse | .addResponse | .delResponse | .modifyDNResponse
  | .compareResponse => some (.fb .bindRequest ctx)
  | .bindResponse => some (.fb .bindResponse ctx)
  | .extendedResponse => some (.fb .extResponse ctx)
  | .fAnd | .fOr => some (.fb .filter ctx)
  | .fNot | .searchRequest | .searchResultEntry => some (.both .filter ctx ctx)
  | .fSubstrings => some (.fb .substrings ctx)
  | .fExt => some (.both .mra ctx ctx)
  | .controls => some (.inh .controls ctx)
  | .modifyDNRequest => some (.fb .modifyDN ctx)
  | .compareRequest => some (.both .compare ctx ctx)
  | .extendedRequest => some (.fb .extRequest ctx)

open Verif.Ldap in
/-- The octets are a sequence of complete elements, and so is the content of every structure among them, at every
depth: all announced lengths fit.  (The first argument bounds the depth of the search; `m.length` suffices.) -/
def lengthsFit : Nat → Ctx → Bytes → Bool
  | _, _, [] => true
  | 0, _, _ :: _ => false
  | f + 1, ctx, m =>
    match header m with
    | none => false
    | some (h, c) =>
      decide (h + c ≤ m.length) &&
      (match (ctx.lookup (tagOf m)).bind (insideTable · ctx.inherit) with
        | some inner => lengthsFit f inner ((m.drop h).take c)
        | none => true) &&
      lengthsFit f ctx (m.drop (h + c))

open Verif.Ldap in
/-- What is written for some messages, one after the other. -/
inductive Wires : List Obj → Bytes → Prop where
  | nil : Wires [] []
  | cons {m ms w b} : toWire m = .ok w → Wires ms b → Wires (m :: ms) (w ++ b)

/-- A program is handed some messages, one after the other, until it raises: its state, and whether it raised. -/
def handAll {σ : Type} (handle : Conn.Handler σ) (s : σ) : List Ldap.Obj → σ × Bool
  | [] => (s, false)
  | o :: os => if (handle s o).2 then ((handle s o).1, true) else handAll handle (handle s o).1 os

end Verif.Spec

namespace Verif.Conn
open Verif.Ldap

/-- The idealised receiver: as `pump`, but going on after an unknown element. -/
def run {σ : Type} (handle : Handler σ) (c : Conn σ) : Conn σ :=
  match _h : berDecodeObject topCtx c.buffer with
  | .error .insufficientData => c
  | .error _ => { c with dead := true }
  | .ok (none, n) => if _hn : n = 0 then c else run handle { c with buffer := c.buffer.drop n }
  | .ok (some o, n) =>
    let r := handle c.st o
    if r.2 then ⟨c.buffer.drop n, r.1, true⟩
    else run handle ⟨c.buffer.drop n, r.1, c.dead⟩
termination_by c.buffer.length
decreasing_by
  all_goals
    have hne : c.buffer ≠ [] := by
      intro h0; rw [h0, berDecodeObject_nil] at _h; cases _h; try exact _hn rfl
    have := decodeObject_consumed hne _h
    simp only [List.length_drop]
    omega

/-- The idealised `dataReceived`. -/
def ideal {σ : Type} (handle : Handler σ) (c : Conn σ) (recd : Bytes) : Conn σ :=
  if c.dead then c else run handle { c with buffer := c.buffer ++ recd }

end Verif.Conn
