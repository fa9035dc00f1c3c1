import Verif.Lemmas.Conn
import Verif.Lemmas.Wire
/-
Helper lemmas for C08: where "insufficient data" can come from.
-/
namespace Verif.Ldap
open Verif.Ber Verif.Spec Verif.Conn

/-- The computation does not end in "insufficient data". -/
structure NI {α : Type} (x : Py α) : Prop where
  ne : x ≠ .error .insufficientData

theorem NI.ok {α : Type} (a : α) : NI (.ok a : Py α) := ⟨by intro h; cases h⟩
theorem NI.pure {α : Type} (a : α) : NI (Pure.pure a : Py α) := ⟨by intro h; cases h⟩
theorem NI.err {α : Type} {e : PyErr} (h : e ≠ .insufficientData) : NI (.error e : Py α) :=
  ⟨by intro h'; cases h'; exact h rfl⟩
theorem NI.bind {α β : Type} {x : Py α} {f : α → Py β} (hx : NI x) (hf : ∀ a, NI (f a)) : NI (x >>= f) := by
  cases x with
  | error e => exact ⟨by intro h; cases h; exact hx.ne rfl⟩
  | ok a => exact hf a

macro "ni" : tactic => `(tactic| repeat' first
  | with_reducible exact NI.ok _ | with_reducible exact NI.pure _ | with_reducible exact NI.err (by decide)
  | with_reducible assumption
  | with_reducible apply NI.bind | intro _ | split)

theorem NI.int2berlen (i : Int) : NI (int2berlen i) := by unfold Ber.int2berlen; simp only []; ni
theorem NI.tlv (t : UInt8) (c : Bytes) : NI (tlv t c) := NI.bind (NI.int2berlen _) fun _ => NI.pure _
theorem NI.encInt (t : UInt8) (v : PyVal) : NI (encInt t v) := by
  cases v <;> first | exact NI.tlv _ _ | exact NI.err (by decide)
theorem NI.toBytes (v : PyVal) : NI (toBytes v) := by
  cases v <;> first | exact NI.ok _ | exact NI.err (by decide)
theorem NI.encOct (t : UInt8) (v : PyVal) : NI (encOct t v) := by
  cases v <;> first | exact NI.err (by decide) | exact NI.bind (NI.toBytes _) fun _ => NI.tlv _ _
theorem NI.encBool (t : UInt8) (v : PyVal) : NI (encBool t v) := by
  have := NI.int2berlen 1
  cases v <;> simp only [Ldap.encBool] <;> ni
theorem NI.encOpt {enc : PyVal → Py Bytes} (h : ∀ v, NI (enc v)) (v : PyVal) : NI (encOpt enc v) := by
  unfold Ldap.encOpt; split; exact NI.ok _; exact h v
theorem NI.encTruthy {enc : PyVal → Py Bytes} (h : ∀ v, NI (enc v)) (v : PyVal) : NI (encTruthy enc v) := by
  unfold Ldap.encTruthy; split; exact h v; exact NI.ok _
theorem NI.joinM {l : List (Py Bytes)} (h : ∀ x ∈ l, NI x) : NI (joinM l) := by
  induction l with
  | nil => exact NI.ok _
  | cons x xs ih =>
    exact NI.bind (h x (by simp)) fun _ => NI.bind (ih fun y hy => h y (by simp [hy])) fun _ => NI.pure _
theorem NI.joinM_map {α : Type} {l : List α} {f : α → Py Bytes} (h : ∀ x, NI (f x)) : NI (Ldap.joinM (l.map f)) := by
  apply NI.joinM; intro x hx; obtain ⟨a, _, rfl⟩ := List.mem_map.mp hx; exact h a
theorem NI.encControl (t : UInt8) (a b c : PyVal) : NI (encControl t a b c) :=
  NI.bind (NI.encOct _ _) fun _ => NI.bind (NI.encOpt (NI.encBool _) _) fun _ =>
    NI.bind (NI.encOpt (NI.encOct _) _) fun _ => NI.tlv _ _
theorem NI.encControls (c : Option (List (PyVal × PyVal × PyVal))) : NI (encControls c) := by
  cases c with
  | none => exact NI.ok _
  | some cs => exact NI.bind (NI.joinM_map fun _ => NI.encControl _ _ _ _) fun _ => NI.tlv _ _
theorem NI.encAuth (a : Auth) : NI (encAuth a) := by
  cases a with
  | simple p => exact NI.encOct _ _
  | sasl m c => exact NI.bind (NI.encOct _ _) fun _ => NI.bind (NI.encTruthy (NI.encOct _) _) fun _ => NI.tlv _ _
theorem NI.encOptBytes (t : UInt8) (o : Option Bytes) : NI (encOptBytes t o) := by
  cases o <;> unfold Ldap.encOptBytes; exact NI.ok _; exact NI.encOct _ _
theorem NI.encOptBool (t : UInt8) (o : Option Int) : NI (encOptBool t o) := by
  cases o <;> unfold Ldap.encOptBool; exact NI.ok _; exact NI.encBool _ _
theorem NI.encAttr (kv : PyVal × List PyVal) : NI (encAttr kv) :=
  NI.bind (NI.encOct _ _) fun _ => NI.bind (NI.joinM_map (NI.encOct _)) fun _ => NI.bind (NI.tlv _ _) fun _ => NI.tlv _ _

macro "niw" : tactic => `(tactic| repeat' first
  | with_reducible exact NI.ok _ | with_reducible exact NI.pure _ | with_reducible exact NI.err (by decide) | with_reducible assumption
  | with_reducible exact NI.encInt _ _ | with_reducible exact NI.encOct _ _ | with_reducible exact NI.encBool _ _ | with_reducible exact NI.tlv _ _ | with_reducible exact NI.encControl _ _ _ _
  | with_reducible exact NI.encControls _ | with_reducible exact NI.encAuth _ | with_reducible exact NI.encOptBytes _ _ | with_reducible exact NI.encOptBool _ _
  | with_reducible exact NI.encOpt (NI.encOct _) _ | with_reducible exact NI.encTruthy (NI.encOct _) _ | with_reducible exact NI.joinM_map (NI.encOct _)
  | with_reducible exact NI.joinM_map NI.encAttr
  | with_reducible apply NI.bind | intro _ | split)

mutual
theorem NI.toWire : (o : Obj) → NI (toWire o)
  | .int .. => by rw [Ldap.toWire]; niw
  | .oct .. => by rw [Ldap.toWire]; niw
  | .null .. => by rw [Ldap.toWire]; niw
  | .bool .. => by rw [Ldap.toWire]; niw
  | .seq _ _ d => by rw [Ldap.toWire]; have := NI.toWireList d; niw
  | .not _ v => by rw [Ldap.toWire]; have := NI.toWire v; niw
  | .ava _ _ a b => by rw [Ldap.toWire]; have := NI.toWire a; have := NI.toWire b; niw
  | .substrings _ _ s => by rw [Ldap.toWire]; have := NI.toWireList s; niw
  | .mra .. => by rw [Ldap.toWire]; niw
  | .message _ v _ => by rw [Ldap.toWire]; have := NI.toWire v; niw
  | .control .. => by rw [Ldap.toWire]; niw
  | .bind .. => by rw [Ldap.toWire]; niw
  | .result .. => by rw [Ldap.toWire]; niw
  | .extResponse .. => by rw [Ldap.toWire]; niw
  | .searchRequest _ _ _ _ _ _ _ f _ => by rw [Ldap.toWire]; have := NI.toWire f; niw
  | .searchEntry .. => by rw [Ldap.toWire]; niw
  | .searchReference _ u => by rw [Ldap.toWire]; have := NI.toWireList u; niw
  | .modifyRequest _ _ m => by rw [Ldap.toWire]; have := NI.toWireList m; niw
  | .addRequest _ _ a => by rw [Ldap.toWire]; have := NI.toWireAttrs a; niw
  | .modifyDN .. => by rw [Ldap.toWire]; niw
  | .compare _ _ a => by rw [Ldap.toWire]; have := NI.toWire a; niw
  | .extRequest .. => by rw [Ldap.toWire]; niw
theorem NI.toWireList : (l : List Obj) → NI (toWireList l)
  | [] => by rw [Ldap.toWireList]; niw
  | x :: xs => by rw [Ldap.toWireList]; have := NI.toWire x; have := NI.toWireList xs; niw
theorem NI.toWireAttrs : (o : Obj) → NI (toWireAttrs o)
  | .seq _ _ d => by rw [Ldap.toWireAttrs]; have := NI.toWireSeqs d; niw
  | .int .. | .oct .. | .null .. | .bool .. | .not .. | .ava .. | .substrings .. | .mra .. | .message .. | .control ..
  | .bind .. | .result .. | .extResponse .. | .searchRequest .. | .searchEntry .. | .searchReference ..
  | .modifyRequest .. | .addRequest .. | .modifyDN .. | .compare .. | .extRequest .. => by
    unfold Ldap.toWireAttrs; niw
theorem NI.toWireSeq : (o : Obj) → NI (toWireSeq o)
  | .seq _ _ d => by rw [Ldap.toWireSeq]; have := NI.toWireList d; niw
  | .int .. | .oct .. | .null .. | .bool .. | .not .. | .ava .. | .substrings .. | .mra .. | .message .. | .control ..
  | .bind .. | .result .. | .extResponse .. | .searchRequest .. | .searchEntry .. | .searchReference ..
  | .modifyRequest .. | .addRequest .. | .modifyDN .. | .compare .. | .extRequest .. => by
    unfold Ldap.toWireSeq; niw
theorem NI.toWireSeqs : (l : List Obj) → NI (toWireSeqs l)
  | [] => by rw [Ldap.toWireSeqs]; niw
  | x :: xs => by rw [Ldap.toWireSeqs]; have := NI.toWireSeq x; have := NI.toWireSeqs xs; niw
end

theorem NI.value (o : Obj) : NI o.value := by
  cases o <;> first | exact NI.ok _ | exact NI.err (by decide)
theorem NI.iter (o : Obj) : NI o.iter := by unfold Obj.iter; ni
theorem NI.nth (l : List Obj) (i : Nat) : NI (nth l i) := by unfold Ldap.nth; ni
theorem NI.mapM' {α β : Type} {f : α → Py β} (h : ∀ a, NI (f a)) (l : List α) : NI (mapM' f l) := by
  induction l with
  | nil => exact NI.ok _
  | cons x xs ih => exact NI.bind (h x) fun _ => NI.bind ih fun _ => NI.pure _
theorem NI.assert' (b : Bool) : NI (assert' b) := by unfold Ldap.assert'; ni
theorem NI.controlVals (o : Obj) : NI (controlVals o) := by unfold Ldap.controlVals; ni

macro "nir" : tactic => `(tactic| repeat' first
  | with_reducible exact NI.ok _ | with_reducible exact NI.pure _ | with_reducible exact NI.err (by decide)
  | with_reducible assumption
  | with_reducible exact NI.value _ | with_reducible exact NI.iter _ | with_reducible exact NI.nth _ _
  | with_reducible exact NI.mapM' NI.value _ | with_reducible exact NI.mapM' NI.controlVals _
  | with_reducible exact NI.assert' _ | with_reducible exact NI.toBytes _ | with_reducible exact NI.toWire _
  | with_reducible apply NI.bind | intro _ | split)

theorem NI.mraParse (t : UInt8) (l : List Obj) : NI (mraParse t l) := by
  unfold Ldap.mraParse; nir
theorem NI.messageControls (l : List Obj) : NI (messageControls l) := by
  unfold Ldap.messageControls; nir
theorem NI.bindAuth (o : Obj) : NI (bindAuth o) := by
  unfold Ldap.bindAuth; nir
theorem NI.optNth (l : List Obj) (i : Nat) {f : PyVal → Py PyVal} (h : ∀ v, NI (f v)) : NI (optNth l i f) := by
  unfold Ldap.optNth; split
  · exact NI.bind (NI.value _) h
  · exact NI.ok _
theorem NI.extResponseParts (l : List Obj) : ∀ a b, NI (extResponseParts l a b) := by
  induction l with
  | nil => intro a b; exact NI.ok _
  | cons x xs ih =>
    intro a b
    unfold Ldap.extResponseParts
    split <;> first | exact NI.ok _ | exact NI.err (by decide) | (rename_i h; cases h; exact ih _ _)
theorem NI.entryAttr (o : Obj) : NI (entryAttr o) := by
  unfold Ldap.entryAttr; nir
theorem NI.ber2int_cons {c : Bytes} (h : c ≠ []) : NI (ber2int c) := by
  cases c with
  | nil => exact absurd rfl h
  | cons a t => exact NI.ok _

theorem NI.int_like {α : Type} {c : Bytes} {f : Int → Py α} (hf : ∀ v, NI (f v)) :
    NI (do Ldap.assert' (0 < c.length); let v ← ber2int c; f v) := by
  cases c with
  | nil => exact NI.err (by decide)
  | cons a t => exact NI.bind (NI.assert' _) fun _ => NI.bind (NI.ber2int_cons (by simp)) hf

/-- A class method reports insufficient data only if decoding its content as elements does. -/
theorem NI.fromBER {decO : Ctx → Bytes → Py (Option Obj × Nat)} {decM : Ctx → Bytes → Py (List Obj)} {content : Bytes}
    (cls : Cls) (tag : UInt8) (ctx : Ctx)
    (h : ∀ c', insideTable cls ctx = some c' → NI (decO c' content) ∧ NI (decM c' content)) :
    NI (fromBER decO decM cls tag content ctx) := by
  have hO : ∀ c', insideTable cls ctx = some c' → NI (decO c' content) := fun c' hc => (h c' hc).1
  have hM : ∀ c', insideTable cls ctx = some c' → NI (decM c' content) := fun c' hc => (h c' hc).2
  cases cls <;> unfold Ldap.fromBER
  all_goals simp only []
  all_goals first
    | (refine NI.int_like ?_; intro v; exact NI.pure _)
    | skip
  all_goals repeat' first
    | exact hM _ rfl | exact hO _ rfl
    | with_reducible exact NI.ok _ | with_reducible exact NI.pure _ | with_reducible exact NI.err (by decide)
    | with_reducible exact NI.value _ | with_reducible exact NI.iter _ | with_reducible exact NI.nth _ _
    | with_reducible exact NI.mapM' NI.value _ | with_reducible exact NI.mapM' NI.entryAttr _
    | with_reducible exact NI.assert' _ | with_reducible exact NI.toBytes _ | with_reducible exact NI.toWire _
    | with_reducible exact NI.mraParse _ _ | with_reducible exact NI.messageControls _
    | with_reducible exact NI.bindAuth _ | with_reducible exact NI.extResponseParts _ _ _
    | with_reducible apply NI.optNth | with_reducible apply NI.bind | intro _ | split

/-- Where all lengths fit, decoding never reports insufficient data. -/
theorem NI.of_lengthsFit (f : Nat) : ∀ (ctx : Ctx) (m : Bytes), lengthsFit f ctx m = true →
    NI (berDecodeObject ctx m) ∧ NI (berDecodeMultiple m ctx) := by
  induction f with
  | zero =>
    intro ctx m h
    cases m with
    | nil => rw [berDecodeObject_nil, berDecodeMultiple_nil]; exact ⟨NI.ok _, NI.ok _⟩
    | cons a t => simp [lengthsFit] at h
  | succ f ih =>
    intro ctx m h
    cases hm : m with
    | nil => rw [berDecodeObject_nil, berDecodeMultiple_nil]; exact ⟨NI.ok _, NI.ok _⟩
    | cons a t =>
      rw [← hm]
      have hne : m ≠ [] := by rw [hm]; simp
      have h' := h
      rw [hm, lengthsFit, ← hm] at h
      · cases hh : header m with
        | none => rw [hh] at h; cases h
        | some x =>
          obtain ⟨hd, c⟩ := x
          rw [hh] at h
          simp only [Bool.and_eq_true, decide_eq_true_eq] at h
          obtain ⟨⟨hle, hin⟩, hrest⟩ := h
          have hobj : NI (berDecodeObject ctx m) := by
            rw [berDecodeObject_complete ctx hh hle]
            split
            · rename_i cls hl
              rw [hl] at hin
              simp only [Option.bind_some] at hin
              have : NI (Ldap.fromBER berDecodeObject (fun c b => berDecodeMultiple b c) cls (tagOf m)
                  ((m.drop hd).take c) ctx.inherit) := by
                apply NI.fromBER
                intro c' hc
                rw [hc] at hin
                exact ih _ _ hin
              generalize Ldap.fromBER berDecodeObject (fun c b => berDecodeMultiple b c) cls (tagOf m)
                ((m.drop hd).take c) ctx.inherit = r at this
              cases r with
              | ok v => exact NI.ok _
              | error e => exact ⟨fun he => this.ne (by cases he; rfl)⟩
            · exact NI.ok _
          refine ⟨hobj, ?_⟩
          rw [berDecodeMultiple_eq ctx m hne]
          cases hd' : berDecodeObject ctx m with
          | error e => rw [hd'] at hobj; exact ⟨fun he => hobj.ne (by cases he; rfl)⟩
          | ok v =>
            obtain ⟨o, n⟩ := v
            have hst := decode_ok_starts hne hd'
            have : n = hd + c := starts_unique hst ⟨hd, c, hh, rfl, hle⟩
            subst this
            exact NI.bind (x := berDecodeMultiple (m.drop (hd + c)) ctx) ((ih _ _ hrest).2) fun _ => NI.pure _
      · simp

end Verif.Ldap
