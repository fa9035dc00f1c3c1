import Verif.Lemmas.Wire
import Verif.Spec.Size
/-
Helper lemmas: encoding succeeds on everything below the BER length limit.
-/
namespace Verif.Ldap
open Verif.Ber Verif.Spec

/-- The computation yields at most `n` octets. -/
def W (x : Py Bytes) (n : Nat) : Prop := ∃ w, x = .ok w ∧ w.length ≤ n

theorem W.mono {x : Py Bytes} {n m : Nat} (h : W x n) (hm : n ≤ m) : W x m := by
  obtain ⟨w, h1, h2⟩ := h; exact ⟨w, h1, by omega⟩

theorem W.tlv {c : Bytes} {n : Nat} (t : UInt8) (h : c.length ≤ n) (hn : elementSize n < lengthLimit) :
    W (tlv t c) (elementSize n) := by
  unfold elementSize at *
  obtain ⟨l, hl⟩ := int2berlen_total c.length (by unfold lengthLimit at hn; omega)
  refine ⟨t :: (l ++ c), ?_, ?_⟩
  · simp only [Ldap.tlv, hl, bind, Except.bind, pure, Except.pure]
  · have : l.length ≤ 128 := by
      rcases int2berlen_ok hl with ⟨_, rfl⟩ | ⟨_, b, bs, hb, rfl, _⟩
      · simp
      · simp only [List.length_cons]; omega
    simp only [List.length_cons, List.length_append]; omega

theorem W.bind {x : Py Bytes} {f : Bytes → Py Bytes} {n m : Nat} (hx : W x n)
    (hf : ∀ c : Bytes, c.length ≤ n → W (f c) m) : W (x >>= f) m := by
  obtain ⟨c, rfl, hc⟩ := hx
  exact hf c hc

theorem W.ok (c : Bytes) {n : Nat} (h : c.length ≤ n) : W (.ok c) n := ⟨c, rfl, h⟩

theorem int2ber_length (i : Int) : (int2ber i).length ≤ i.natAbs + 1 := by
  have hp : i.natAbs < 128 * 256 ^ i.natAbs := by
    have h1 : i.natAbs < 256 ^ i.natAbs := Nat.lt_pow_self (by decide)
    omega
  have hp' : ((i.natAbs : Nat) : Int) < 128 * 256 ^ i.natAbs := by
    have := Int.ofNat_lt.mpr hp
    rw [Int.natCast_mul, Int.natCast_pow] at this
    exact this
  have := int2berLoop_signed_length i.natAbs i [] (by omega) (by omega)
  simpa [int2ber] using this

theorem W.encInt (t : UInt8) (i : Int) (h : intSize i < lengthLimit) : W (encInt t (.int i)) (intSize i) :=
  W.tlv t (int2ber_length i) h

theorem W.encOct (t : UInt8) (b : Bytes) (h : octSize b < lengthLimit) : W (encOct t (.bytes b)) (octSize b) :=
  W.tlv t (Nat.le_refl _) h

theorem W.encBool (t : UInt8) (i : Int) : W (encBool t (.int i)) boolSize := by
  rw [encBool_int, tlv_one]; exact W.ok _ (by simp [boolSize, elementSize])

theorem W.encOptOct (t : UInt8) (o : Option Bytes) (h : optSize o < lengthLimit) :
    W (encOpt (Ldap.encOct t) (optVal o)) (optSize o) := by
  cases o with
  | none => exact W.ok _ (by simp)
  | some b => exact W.encOct t b h

theorem W.encTruthyOct (t : UInt8) (o : Option Bytes) (h : optSize o < lengthLimit) :
    W (encTruthy (Ldap.encOct t) (optVal o)) (optSize o) := by
  cases o with
  | none => exact W.ok _ (by simp)
  | some b =>
    unfold Ldap.encTruthy
    by_cases hb : (optVal (some b)).truthy = true
    · rw [if_pos hb]; exact W.encOct t b h
    · rw [if_neg hb]; exact W.ok _ (by simp)

theorem W.encOptBytes (t : UInt8) (o : Option Bytes) (h : optSize o < lengthLimit) :
    W (encOptBytes t o) (optSize o) := by
  cases o with
  | none => exact W.ok _ (by simp)
  | some b => exact W.encOct t b h

theorem W.encOptBool (t : UInt8) (o : Option Int) : W (encOptBool t o) boolSize := by
  cases o with
  | none => exact W.ok _ (by simp)
  | some b => exact W.encBool t b

theorem W.joinM {α : Type} (f : α → Py Bytes) (s : α → Nat) (hf : ∀ x, s x < lengthLimit → W (f x) (s x))
    (l : List α) (h : sizeSum s l < lengthLimit) : W (joinM (l.map f)) (sizeSum s l) := by
  induction l with
  | nil => exact W.ok _ (by simp)
  | cons x xs ih =>
    simp only [sizeSum] at h ⊢
    refine W.bind (hf x (by omega)) fun a ha => W.bind (ih (by omega)) fun b hb => W.ok _ ?_
    simp only [List.length_append]; omega

theorem W.toWireList {α : Type} (f : α → Obj) (s : α → Nat) (hf : ∀ x, s x < lengthLimit → W (toWire (f x)) (s x))
    (l : List α) (h : sizeSum s l < lengthLimit) : W (toWireList (l.map f)) (sizeSum s l) := by
  induction l with
  | nil => exact W.ok _ (by simp)
  | cons x xs ih =>
    simp only [sizeSum] at h ⊢
    simp only [List.map_cons, Ldap.toWireList]
    refine W.bind (hf x (by omega)) fun a ha => W.bind (ih (by omega)) fun b hb => W.ok _ ?_
    simp only [List.length_append]; omega

theorem W.octet (b : Bytes) (h : octSize b < lengthLimit) : W (toWire (octet b)) (octSize b) := by
  rw [Spec.octet, Ldap.toWire]; exact W.encOct _ _ h

theorem sub_le {n : Nat} {m : Nat} (h : elementSize n < m) : n < m := by unfold elementSize at h; omega

macro "wlen" : tactic => `(tactic| (simp only [List.length_append]; omega))
macro "wlim" : tactic => `(tactic| (simp only [elementSize, octSize, intSize, boolSize, attrSize] at *; omega))

mutual
theorem W.filter : (f : Filter) → f.size < lengthLimit → W (toWire f.build) f.size
  | .and fs, h => by
    rw [Filter.size] at h
    rw [Filter.build, Ldap.toWire, Filter.size]
    exact W.bind (W.filters fs (sub_le h)) fun c hc => W.tlv _ hc h
  | .or fs, h => by
    rw [Filter.size] at h
    rw [Filter.build, Ldap.toWire, Filter.size]
    exact W.bind (W.filters fs (sub_le h)) fun c hc => W.tlv _ hc h
  | .not f, h => by
    rw [Filter.size] at h
    rw [Filter.build, Ldap.toWire, Filter.size]
    exact W.bind (W.filter f (sub_le h)) fun c hc => W.tlv _ hc h
  | .equal a v, h => by
    rw [Filter.size] at h
    rw [Filter.build, Ldap.toWire, Filter.size]
    have := sub_le h
    exact W.bind (W.octet a (by omega)) fun c hc => W.bind (W.octet v (by omega)) fun d hd => W.tlv _ (by wlen) h
  | .ge a v, h => by
    rw [Filter.size] at h
    rw [Filter.build, Ldap.toWire, Filter.size]
    have := sub_le h
    exact W.bind (W.octet a (by omega)) fun c hc => W.bind (W.octet v (by omega)) fun d hd => W.tlv _ (by wlen) h
  | .le a v, h => by
    rw [Filter.size] at h
    rw [Filter.build, Ldap.toWire, Filter.size]
    have := sub_le h
    exact W.bind (W.octet a (by omega)) fun c hc => W.bind (W.octet v (by omega)) fun d hd => W.tlv _ (by wlen) h
  | .approx a v, h => by
    rw [Filter.size] at h
    rw [Filter.build, Ldap.toWire, Filter.size]
    have := sub_le h
    exact W.bind (W.octet a (by omega)) fun c hc => W.bind (W.octet v (by omega)) fun d hd => W.tlv _ (by wlen) h
  | .substrings a ps, h => by
    rw [Filter.size] at h
    rw [Filter.build, Ldap.toWire, Filter.size]
    have h1 := sub_le h
    refine W.bind (W.encOct _ a (by omega)) fun c hc => ?_
    refine W.bind (W.toWireList subObj (fun p => octSize p.2) ?_ ps (sub_le (by omega))) fun d hd => ?_
    · rintro ⟨k, v⟩ hv
      cases k <;> rw [subObj, Ldap.toWire] <;> exact W.encOct _ _ hv
    · exact W.bind (W.tlv _ hd (by omega)) fun e he => W.tlv _ (by wlen) h
  | .present a, h => by
    rw [Filter.size] at h
    rw [Filter.build, Ldap.toWire, Filter.size]
    exact W.encOct _ a h
  | .ext r t v d, h => by
    rw [Filter.size] at h
    rw [Filter.build, Ldap.toWire, Filter.size]
    have := sub_le h
    exact W.bind (W.encOptBytes _ r (by omega)) fun c hc => W.bind (W.encOptBytes _ t (by omega)) fun e he =>
      W.bind (W.encOct _ v (by omega)) fun g hg => W.bind (W.encOptBool _ _) fun i hi => W.tlv _ (by wlen) h
theorem W.filters : (fs : List Filter) → Filter.sizes fs < lengthLimit →
    W (Ldap.toWireList (Filter.buildAll fs)) (Filter.sizes fs)
  | [], _ => by rw [Filter.buildAll, Ldap.toWireList]; exact W.ok _ (by simp)
  | f :: fs, h => by
    rw [Filter.sizes] at h
    rw [Filter.buildAll, Ldap.toWireList, Filter.sizes]
    exact W.bind (W.filter f (by omega)) fun a ha => W.bind (W.filters fs (by omega)) fun b hb =>
      W.ok _ (by wlen)
end

theorem W.attrObj (kv : Bytes × List Bytes) (h : attrSize kv < lengthLimit) : W (toWire (attrObj kv)) (attrSize kv) := by
  unfold attrSize at *
  have h1 := sub_le h
  rw [Spec.attrObj, seqObj, Ldap.toWire, Ldap.toWireList, Ldap.toWireList, Ldap.toWireList]
  refine W.bind (n := octSize kv.1 + elementSize (sizeSum octSize kv.2)) ?_ fun c hc => W.tlv _ hc h
  refine W.bind (W.octet kv.1 (by omega)) fun a ha => ?_
  refine W.bind (n := elementSize (sizeSum octSize kv.2)) ?_ fun b hb => W.ok _ (by wlen)
  refine W.bind (n := elementSize (sizeSum octSize kv.2)) ?_ fun b hb => W.bind (W.ok (n := 0) [] (by simp)) fun e he =>
    W.ok _ (by wlen)
  rw [setObj, Ldap.toWire]
  exact W.bind (W.toWireList Spec.octet octSize W.octet kv.2 (sub_le (by omega))) fun c hc => W.tlv _ hc (by omega)

theorem W.changeObj (c : Int × Bytes × List Bytes) (h : elementSize (intSize c.1 + attrSize c.2) < lengthLimit) :
    W (toWire (changeObj c)) (elementSize (intSize c.1 + attrSize c.2)) := by
  have h1 := sub_le h
  rw [Spec.changeObj, seqObj, Ldap.toWire, Ldap.toWireList, Ldap.toWireList, Ldap.toWireList]
  refine W.bind (n := intSize c.1 + attrSize c.2) ?_ fun c hc => W.tlv _ hc h
  rw [Ldap.toWire]
  refine W.bind (W.encInt _ c.1 (by omega)) fun a ha => ?_
  refine W.bind (n := attrSize c.2) ?_ fun b hb => W.ok _ (by wlen)
  exact W.bind (W.attrObj c.2 (by omega)) fun b hb => W.bind (W.ok (n := 0) [] (by simp)) fun e he =>
    W.ok _ (by wlen)

theorem W.encAttr (kv : Bytes × List Bytes) (h : attrSize kv < lengthLimit) :
    W (encAttr (.bytes kv.1, kv.2.map .bytes)) (attrSize kv) := by
  unfold attrSize at *
  have h1 := sub_le h
  simp only [Ldap.encAttr, List.map_map]
  refine W.bind (W.encOct _ kv.1 (by omega)) fun a ha => ?_
  refine W.bind (W.joinM (Ldap.encOct 0x04 ∘ .bytes) octSize (fun x hx => W.encOct _ x hx) kv.2 (sub_le (by omega)))
    fun b hb => ?_
  exact W.bind (W.tlv _ hb (by omega)) fun c hc => W.tlv _ (by wlen) h

theorem W.toWireSeqs_attrs (l : List (Bytes × List Bytes)) (h : sizeSum attrSize l < lengthLimit) :
    W (toWireSeqs (l.map Spec.attrObj)) (sizeSum attrSize l) := by
  induction l with
  | nil => rw [List.map_nil, toWireSeqs]; exact W.ok _ (by simp)
  | cons kv xs ih =>
    simp only [sizeSum] at h ⊢
    simp only [List.map_cons, toWireSeqs]
    refine W.bind (n := attrSize kv) ?_ fun a ha => W.bind (ih (by omega)) fun b hb => W.ok _ (by wlen)
    have := W.attrObj kv (by omega)
    rw [Spec.attrObj, seqObj, Ldap.toWire] at this
    rw [Spec.attrObj, seqObj, toWireSeq]
    exact this

theorem W.control (c : Control) (h : c.size < lengthLimit) :
    W (encControl 0x10 c.vals.1 c.vals.2.1 c.vals.2.2) c.size := by
  obtain ⟨o, cr, v⟩ := c
  simp only [Control.size] at *
  have h1 := sub_le h
  simp only [Control.vals, encControl]
  refine W.bind (W.encOct _ o (by omega)) fun a ha => ?_
  refine W.bind (n := boolSize) ?_ fun b hb => ?_
  · cases cr with
    | none => exact W.ok _ (by simp)
    | some b => exact W.encBool _ _
  · exact W.bind (W.encOptOct _ v (by omega)) fun d hd => W.tlv _ (by wlen) h

theorem W.op (o : Op) (h : o.size < lengthLimit) : W (toWire o.build) o.size := by
  cases o with
  | bindSimple v dn p =>
    simp only [Op.size, Op.build, Ldap.toWire, encAuth] at *
    have h1 := sub_le h
    exact W.bind (W.encInt _ v (by omega)) fun a ha => W.bind (W.encOct _ dn (by omega)) fun b hb =>
      W.bind (W.encOct _ p (by omega)) fun c hc => W.tlv _ (by wlen) h
  | bindSasl v dn m cr =>
    simp only [Op.size, Op.build, Ldap.toWire, encAuth] at *
    have h1 := sub_le h
    refine W.bind (W.encInt _ v (by omega)) fun a ha => W.bind (W.encOct _ dn (by omega)) fun b hb => ?_
    refine W.bind (n := elementSize (octSize m + optSize cr)) ?_ fun c hc => W.tlv _ (by wlen) h
    have h2 : octSize m + optSize cr < lengthLimit := sub_le (by omega)
    exact W.bind (W.encOct _ m (by omega)) fun c hc => W.bind (W.encTruthyOct _ cr (by omega)) fun d hd =>
      W.tlv _ (by wlen) (by omega)
  | bindResponse c m e s =>
    simp only [Op.size, Op.build, Ldap.toWire] at *
    have h1 := sub_le h
    exact W.bind (W.encInt _ c (by omega)) fun a ha => W.bind (W.encOct _ m (by omega)) fun b hb =>
      W.bind (W.encOct _ e (by omega)) fun c hc => W.bind (W.encTruthyOct _ s (by omega)) fun d hd =>
      W.tlv _ (by wlen) h
  | unbind => simp only [Op.size, Op.build, Ldap.toWire]; exact W.ok _ (by simp)
  | search b s d sl tl to f as =>
    simp only [Op.size, Op.build, Ldap.toWire, boolVal, List.map_map] at *
    have h1 := sub_le h
    have h2 : sizeSum octSize as < lengthLimit := sub_le (by omega)
    exact W.bind (W.encOct _ b (by omega)) fun _ _ => W.bind (W.encInt _ s (by omega)) fun _ _ =>
      W.bind (W.encInt _ d (by omega)) fun _ _ => W.bind (W.encInt _ sl (by omega)) fun _ _ =>
      W.bind (W.encInt _ tl (by omega)) fun _ _ => W.bind (W.encBool _ _) fun _ _ =>
      W.bind (W.filter f (by omega)) fun _ _ =>
      W.bind (W.joinM (Ldap.encOct 0x04 ∘ .bytes) octSize (fun x hx => W.encOct _ x hx) as h2) fun _ hj =>
      W.bind (W.tlv _ hj (by omega)) fun _ _ => W.tlv _ (by wlen) h
  | entry dn as =>
    simp only [Op.size, Op.build, Ldap.toWire, List.map_map] at *
    have h1 := sub_le h
    have h2 : sizeSum attrSize as < lengthLimit := sub_le (by omega)
    exact W.bind (W.encOct _ dn (by omega)) fun _ _ =>
      W.bind (W.joinM _ attrSize (fun x hx => W.encAttr x hx) as h2) fun _ hj =>
      W.bind (W.tlv _ hj (by omega)) fun _ _ => W.tlv _ (by wlen) h
  | reference us =>
    simp only [Op.size, Op.build, Ldap.toWire] at *
    exact W.bind (W.toWireList Spec.octet octSize W.octet us (sub_le h)) fun _ hj => W.tlv _ hj h
  | result k c m e =>
    simp only [Op.size, Op.build, Ldap.toWire] at *
    have h1 := sub_le h
    exact W.bind (W.encInt _ c (by omega)) fun a ha => W.bind (W.encOct _ m (by omega)) fun b hb =>
      W.bind (W.encOct _ e (by omega)) fun c hc => W.bind (W.ok (n := 0) [] (by simp)) fun d hd =>
      W.tlv _ (by wlen) h
  | modify dn cs =>
    simp only [Op.size, Op.build, Ldap.toWire] at *
    have h1 := sub_le h
    have h2 := sub_le (n := sizeSum (fun c : Int × Bytes × List Bytes => elementSize (intSize c.1 + attrSize c.2)) cs)
      (m := lengthLimit) (by omega)
    exact W.bind (W.encOct _ dn (by omega)) fun _ _ =>
      W.bind (W.toWireList Spec.changeObj _ (fun x hx => W.changeObj x hx) cs h2) fun _ hj =>
      W.bind (W.tlv _ hj (by omega)) fun _ _ => W.tlv _ (by wlen) h
  | add dn as =>
    simp only [Op.size, Op.build, Ldap.toWire, seqObj, toWireAttrs] at *
    have h1 := sub_le h
    have h2 : sizeSum attrSize as < lengthLimit := sub_le (by omega)
    refine W.bind (W.encOct _ dn (by omega)) fun _ _ => W.bind (n := elementSize (sizeSum attrSize as)) ?_ fun _ _ =>
      W.tlv _ (by wlen) h
    exact W.bind (W.toWireSeqs_attrs as h2) fun _ hj => W.tlv _ hj (by omega)
  | delete dn => simp only [Op.size, Op.build, Ldap.toWire] at *; exact W.encOct _ dn h
  | modifyDN dn n d s =>
    simp only [Op.size, Op.build, Ldap.toWire, boolVal] at *
    have h1 := sub_le h
    exact W.bind (W.encOct _ dn (by omega)) fun _ _ => W.bind (W.encOct _ n (by omega)) fun _ _ =>
      W.bind (W.encBool _ _) fun _ _ => W.bind (W.encOptOct _ s (by omega)) fun _ _ => W.tlv _ (by wlen) h
  | compare dn a v =>
    simp only [Op.size, Op.build, Ldap.toWire] at *
    have h1 := sub_le h
    have h2 : octSize a + octSize v < lengthLimit := sub_le (by omega)
    refine W.bind (W.encOct _ dn (by omega)) fun _ _ => W.bind (n := elementSize (octSize a + octSize v)) ?_ fun _ _ =>
      W.tlv _ (by wlen) h
    exact W.bind (W.octet a (by omega)) fun _ _ => W.bind (W.octet v (by omega)) fun _ _ => W.tlv _ (by wlen) (by omega)
  | abandon i => simp only [Op.size, Op.build, Ldap.toWire] at *; exact W.encInt _ i h
  | extRequest n v =>
    simp only [Op.size, Op.build, Ldap.toWire] at *
    have h1 := sub_le h
    exact W.bind (W.encOct _ n (by omega)) fun _ _ => W.bind (W.encOptOct _ v (by omega)) fun _ _ =>
      W.tlv _ (by wlen) h
  | extResponse c m e n v =>
    simp only [Op.size, Op.build, Ldap.toWire] at *
    have h1 := sub_le h
    exact W.bind (W.encInt _ c (by omega)) fun a ha => W.bind (W.encOct _ m (by omega)) fun b hb =>
      W.bind (W.encOct _ e (by omega)) fun c hc => W.bind (W.encOptOct _ n (by omega)) fun d hd =>
      W.bind (W.encOptOct _ v (by omega)) fun _ _ => W.tlv _ (by wlen) h

theorem W.msg (m : Msg) (h : m.size < lengthLimit) : W (toWire m.build) m.size := by
  obtain ⟨i, o, cs⟩ := m
  simp only [Msg.size, Msg.build, Ldap.toWire] at *
  have h1 := sub_le h
  refine W.bind (W.encInt _ i (by omega)) fun _ _ => W.bind (W.op o (by omega)) fun _ _ =>
    W.bind (n := controlsSize cs) ?_ fun _ _ => W.tlv _ (by wlen) h
  cases cs with
  | none => exact W.ok _ (by simp)
  | some l =>
    simp only [Option.map_some, encControls, List.map_map, controlsSize] at *
    have h2 : sizeSum Control.size l < lengthLimit := sub_le (by omega)
    exact W.bind (W.joinM _ Control.size (fun x hx => W.control x hx) l h2) fun _ hj => W.tlv _ hj (by omega)

end Verif.Ldap
