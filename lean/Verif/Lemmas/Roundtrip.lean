import Verif.Lemmas.Wire
import Verif.Spec.Message
/-
Helper lemmas for C06: decoding what was encoded, piece by piece.
-/
namespace Verif.Ldap
open Verif.Ber Verif.Spec

/-- `w` is one element which decodes to `o` in context `ctx`. -/
def Dec (ctx : Ctx) (w : Bytes) (o : Obj) : Prop :=
  IsElement w ∧ berDecodeObject ctx w = .ok (some o, w.length)

/-- `c` decodes to the element list `os` in context `ctx`. -/
def DecL (ctx : Ctx) (c : Bytes) (os : List Obj) : Prop := berDecodeMultiple c ctx = .ok os

theorem DecL.nil (ctx : Ctx) : DecL ctx [] [] := berDecodeMultiple_nil ctx

theorem DecL.cons {ctx : Ctx} {w c : Bytes} {o : Obj} {os : List Obj} (h : Dec ctx w o) (hs : DecL ctx c os) :
    DecL ctx (w ++ c) (o :: os) := by
  unfold DecL at *
  rw [berDecodeMultiple_cons ctx h.1, h.2, hs]
  rfl

theorem DecL.one {ctx : Ctx} {w : Bytes} {o : Obj} (h : Dec ctx w o) : DecL ctx w [o] := by
  have := DecL.cons h (DecL.nil ctx)
  simpa using this

theorem DecL.append {ctx : Ctx} {a b : Bytes} {os ps : List Obj} (ha : DecL ctx a os) (hb : DecL ctx b ps)
    (he : Elements a) : DecL ctx (a ++ b) (os ++ ps) := by
  induction he generalizing os with
  | nil => rw [DecL, berDecodeMultiple_nil] at ha; cases ha; simpa using hb
  | cons w rest hw _ ih =>
    rw [DecL, berDecodeMultiple_cons ctx hw] at ha
    rw [DecL, List.append_assoc, berDecodeMultiple_cons ctx hw]
    cases hd : berDecodeObject ctx w with
    | error e => rw [hd] at ha; cases ha
    | ok v =>
      rw [hd] at ha
      cases hr : berDecodeMultiple rest ctx with
      | error e => rw [hr] at ha; cases ha
      | ok l' =>
        rw [hr] at ha
        simp only [bind, Except.bind, pure, Except.pure, Except.ok.injEq] at ha
        have := ih (os := l') hr
        rw [DecL] at this
        simp only [bind, Except.bind, pure, Except.pure, this, ← ha]
        cases v.1 <;> rfl

/-- The class method used for decoding, with the decoders plugged in. -/
abbrev fromBER' (cls : Cls) (tag : UInt8) (content : Bytes) (ctx : Ctx) : Py Obj :=
  fromBER berDecodeObject (fun c b => berDecodeMultiple b c) cls tag content ctx

theorem Dec.of_tlv {t : UInt8} {c w : Bytes} {ctx : Ctx} {cls : Cls} {o : Obj} (h : tlv t c = .ok w)
    (hl : ctx.lookup (t &&& 0xDF) = some cls)
    (hf : fromBER' cls (t &&& 0xDF) c ctx.inherit = .ok o) : Dec ctx w o := by
  refine ⟨tlv_isElement h, ?_⟩
  rw [decode_tlv h ctx hl]
  unfold fromBER' at hf
  rw [hf]
  rfl

/-! ### Decoding contexts that still know the universal types -/

def plain : CtxKind → Bool
  | .ber | .topLevel | .controls | .searchReference | .compare | .ldap => false
  | _ => true

/-- Contexts in which the universal types have their usual meaning, also for nested elements. -/
inductive Good : Ctx → Prop where
  | ldap : Good ldapCtx
  | fb {k : CtxKind} {c : Ctx} : plain k = true → Good c → Good (.fb k c)
  | both {k : CtxKind} {c i : Ctx} : plain k = true → Good c → Good i → Good (.both k c i)

def universal (t : UInt8) : Prop := t = 0x01 ∨ t = 0x02 ∨ t = 0x04 ∨ t = 0x0A ∨ t = 0x10 ∨ t = 0x11

theorem plain_universal {k : CtxKind} (h : plain k = true) {t : UInt8} (ht : universal t) :
    identities k t = none := by
  rcases ht with rfl | rfl | rfl | rfl | rfl | rfl <;> cases k <;> first | rfl | (simp [plain] at h)

theorem Good.lookup {c : Ctx} (h : Good c) {t : UInt8} (ht : universal t) :
    c.lookup t = identities .ber t := by
  induction h with
  | ldap => rcases ht with rfl | rfl | rfl | rfl | rfl | rfl <;> rfl
  | fb hk _ ih => simp only [Ctx.lookup, plain_universal hk ht, ih]
  | both hk _ _ ih _ => simp only [Ctx.lookup, plain_universal hk ht, ih]

theorem Good.inherit {c : Ctx} (h : Good c) : Good c.inherit := by
  cases h with
  | ldap => exact Good.ldap
  | fb hk hc => exact Good.fb hk hc
  | both hk hc hi => exact hi

theorem Good.int {c : Ctx} (h : Good c) : c.lookup 0x02 = some .integer := h.lookup (by simp [universal])
theorem Good.oct {c : Ctx} (h : Good c) : c.lookup 0x04 = some .octetString := h.lookup (by simp [universal])
theorem Good.bool {c : Ctx} (h : Good c) : c.lookup 0x01 = some .boolean := h.lookup (by simp [universal])
theorem Good.enum {c : Ctx} (h : Good c) : c.lookup 0x0A = some .enumerated := h.lookup (by simp [universal])
theorem Good.seq {c : Ctx} (h : Good c) : c.lookup 0x10 = some .sequence := h.lookup (by simp [universal])
theorem Good.set {c : Ctx} (h : Good c) : c.lookup 0x11 = some .set := h.lookup (by simp [universal])

/-! ### Scalars -/

theorem int2ber_ne_nil (i : Int) : ∃ b bs, int2ber i = b :: bs ∧ twosComplement (b :: bs) = i := by
  obtain ⟨b, bs, h1, h2⟩ := int2berLoop_signed i []
  refine ⟨b, bs, h1, ?_⟩
  simpa [bigEndian] using h2

theorem fromBER_int (cls : Cls) (hc : cls = .integer ∨ cls = .enumerated ∨ cls = .abandonRequest) (t : UInt8)
    (i : Int) (ctx : Ctx) : fromBER' cls t (int2ber i) ctx = .ok (.int cls t i) := by
  obtain ⟨b, bs, h1, h2⟩ := int2ber_ne_nil i
  rw [h1]
  rcases hc with rfl | rfl | rfl <;>
  simp [fromBER', fromBER, assert', ber2int_signed, bind, Except.bind, pure, Except.pure, h2]

theorem Dec.int {t : UInt8} {i : Int} {w : Bytes} {ctx : Ctx} {cls : Cls} (h : encInt t (.int i) = .ok w)
    (hl : ctx.lookup (t &&& 0xDF) = some cls)
    (hc : cls = .integer ∨ cls = .enumerated ∨ cls = .abandonRequest) : Dec ctx w (.int cls (t &&& 0xDF) i) :=
  Dec.of_tlv h hl (fromBER_int cls hc _ i _)

def octLike : Cls → Bool
  | .octetString | .ldapString | .saslCreds | .newSuperior | .delRequest | .fPresent
  | .subInitial | .subAny | .subFinal | .mraRule | .mraType | .mraValue
  | .responseName | .response | .pmUser | .pmOld | .pmNew => true
  | _ => false

theorem fromBER_oct {cls : Cls} (hc : octLike cls = true) (t : UInt8) (v : Bytes) (ctx : Ctx) :
    fromBER' cls t v ctx = .ok (.oct cls t v) := by
  cases cls <;> first | rfl | (simp [octLike] at hc)

theorem encOct_bytes (t : UInt8) (v : Bytes) : encOct t (.bytes v) = tlv t v := rfl

theorem Dec.oct {t : UInt8} {v w : Bytes} {ctx : Ctx} {cls : Cls} (h : encOct t (.bytes v) = .ok w)
    (hl : ctx.lookup (t &&& 0xDF) = some cls) (hc : octLike cls = true) : Dec ctx w (.oct cls (t &&& 0xDF) v) :=
  Dec.of_tlv (by rw [← encOct_bytes]; exact h) hl (fromBER_oct hc _ v _)

theorem Dec.bool {t : UInt8} {i : Int} {w : Bytes} {ctx : Ctx} {cls : Cls} (h : encBool t (.int i) = .ok w)
    (hl : ctx.lookup (t &&& 0xDF) = some cls) (hc : cls = .boolean ∨ cls = .mraDn) :
    Dec ctx w (.bool cls (t &&& 0xDF) (if i = 0 then 0 else 255)) := by
  rw [encBool_int] at h
  refine Dec.of_tlv h hl ?_
  by_cases hi : i = 0
  · simp only [hi, if_true]
    rcases hc with rfl | rfl <;> rfl
  · simp only [hi, if_false]
    rcases hc with rfl | rfl <;> rfl

/-- `Dec.of_tlv` for constructed encodings. -/
theorem Dec.of_struct {t : UInt8} {c w : Bytes} {ctx : Ctx} {cls : Cls} {o : Obj}
    (h : tlv (structured t) c = .ok w) (ht : structured t &&& 0xDF = t) (hl : ctx.lookup t = some cls)
    (hf : fromBER' cls t c ctx.inherit = .ok o) : Dec ctx w o := by
  apply Dec.of_tlv h (cls := cls)
  · rw [ht]; exact hl
  · rw [ht]; exact hf

theorem Dec.seq {t : UInt8} {c w : Bytes} {ctx : Ctx} {cls : Cls} {os : List Obj}
    (h : tlv (structured t) c = .ok w) (ht : structured t &&& 0xDF = t) (hl : ctx.lookup t = some cls)
    (hc : cls = .sequence ∨ cls = .set ∨ cls = .referral) (hd : DecL ctx.inherit c os) :
    Dec ctx w (.seq cls t os) := by
  apply Dec.of_struct h ht hl
  rw [DecL] at hd
  rcases hc with rfl | rfl | rfl <;> simp only [fromBER', fromBER, hd, bind, Except.bind, pure, Except.pure]

/-- The parts of a constructed encoding, in the order in which they are written. -/
theorem toWireList_cons {x : Obj} {xs : List Obj} {w : Bytes} (h : toWireList (x :: xs) = .ok w) :
    ∃ a b, toWire x = .ok a ∧ toWireList xs = .ok b ∧ w = a ++ b := by
  simp only [toWireList] at h
  obtain ⟨a, ha, h⟩ := bind_ok h
  obtain ⟨b, hb, h⟩ := bind_ok h
  exact ⟨a, b, ha, hb, (Except.ok.inj h).symm⟩

theorem joinM_cons {x : Py Bytes} {xs : List (Py Bytes)} {w : Bytes} (h : joinM (x :: xs) = .ok w) :
    ∃ a b, x = .ok a ∧ joinM xs = .ok b ∧ w = a ++ b := by
  simp only [joinM] at h
  obtain ⟨a, ha, h⟩ := bind_ok h
  obtain ⟨b, hb, h⟩ := bind_ok h
  exact ⟨a, b, ha, hb, (Except.ok.inj h).symm⟩

/-- A list of encoded objects decodes to the list of objects, if each of them does. -/
theorem DecL.toWireList {ctx : Ctx} {α : Type} (f g : α → Obj) (l : List α)
    (hd : ∀ x ∈ l, ∀ w, toWire (f x) = .ok w → Dec ctx w (g x)) {w : Bytes}
    (h : Ldap.toWireList (l.map f) = .ok w) : DecL ctx w (l.map g) := by
  induction l generalizing w with
  | nil => simp only [List.map_nil, Ldap.toWireList, Except.ok.injEq] at h; subst h; exact DecL.nil ctx
  | cons x xs ih =>
    obtain ⟨a, b, ha, hb, rfl⟩ := toWireList_cons h
    exact DecL.cons (hd x (by simp) a ha) (ih (fun y hy => hd y (by simp [hy])) hb)

theorem DecL.joinM {ctx : Ctx} {α : Type} (e : α → Py Bytes) (g : α → Obj) (l : List α)
    (hd : ∀ x ∈ l, ∀ w, e x = .ok w → Dec ctx w (g x)) {w : Bytes}
    (h : Ldap.joinM (l.map e) = .ok w) : DecL ctx w (l.map g) := by
  induction l generalizing w with
  | nil => simp only [List.map_nil, Ldap.joinM, Except.ok.injEq] at h; subst h; exact DecL.nil ctx
  | cons x xs ih =>
    obtain ⟨a, b, ha, hb, rfl⟩ := joinM_cons h
    exact DecL.cons (hd x (by simp) a ha) (ih (fun y hy => hd y (by simp [hy])) hb)

theorem mapM'_ok {α β γ : Type} (f : β → Py γ) (g : α → β) (k : α → γ) (l : List α) (h : ∀ x ∈ l, f (g x) = .ok (k x)) :
    mapM' f (l.map g) = .ok (l.map k) := by
  induction l with
  | nil => rfl
  | cons x xs ih =>
    simp only [List.map_cons, mapM', h x (by simp), ih (fun y hy => h y (by simp [hy])), bind, Except.bind, pure,
      Except.pure]

theorem allSome_map {α β γ : Type} (f : β → Option γ) (g : α → β) (k : α → γ) (l : List α)
    (h : ∀ x ∈ l, f (g x) = some (k x)) : allSome f (l.map g) = some (l.map k) := by
  induction l with
  | nil => rfl
  | cons x xs ih =>
    simp only [List.map_cons, allSome, h x (by simp), ih (fun y hy => h y (by simp [hy])), bind, Option.bind, pure]

/-! ### Filters -/

theorem Dec.octet {ctx : Ctx} (hg : Good ctx) {v w : Bytes} (h : toWire (octet v) = .ok w) :
    Dec ctx w (octet v) := by
  simp only [Spec.octet, toWire] at h
  exact Dec.oct (t := 0x04) h hg.oct rfl

theorem Dec.octet' {ctx : Ctx} (hg : Good ctx) {v w : Bytes} (h : encOct 0x04 (.bytes v) = .ok w) :
    Dec ctx w (Spec.octet v) := Dec.oct (t := 0x04) h hg.oct rfl

theorem Dec.ava {t : UInt8} {a v w : Bytes} {ctx : Ctx} {cls : Cls}
    (h : toWire (.ava cls t (Spec.octet a) (Spec.octet v)) = .ok w) (ht : structured t &&& 0xDF = t)
    (hl : ctx.lookup t = some cls) (hg : Good ctx.inherit)
    (hc : cls = .ava ∨ cls = .fEq ∨ cls = .fGe ∨ cls = .fLe ∨ cls = .fApprox) :
    Dec ctx w (.ava cls t (Spec.octet a) (Spec.octet v)) := by
  simp only [toWire] at h
  obtain ⟨x, hx, h⟩ := bind_ok h
  obtain ⟨y, hy, h⟩ := bind_ok h
  apply Dec.of_struct h ht hl
  have hd : berDecodeMultiple (x ++ y) ctx.inherit = .ok [Spec.octet a, Spec.octet v] :=
    DecL.cons (Dec.octet hg hx) (DecL.one (Dec.octet hg hy))
  rcases hc with rfl | rfl | rfl | rfl | rfl <;>
    simp only [fromBER', fromBER, hd, bind, Except.bind, pure, Except.pure]

/-- A context in which a filter is decoded. -/
def FilterCtx (ctx : Ctx) : Prop := (∀ t, ∀ cls, identities .filter t = some cls → ctx.lookup t = some cls) ∧ Good ctx.inherit

theorem FilterCtx.fb {c : Ctx} (h : Good c) : FilterCtx (.fb .filter c) :=
  ⟨fun t cls ht => by simp [Ctx.lookup, ht], Good.fb rfl h⟩

theorem FilterCtx.both {c i : Ctx} (hi : Good i) : FilterCtx (.both .filter c i) :=
  ⟨fun t cls ht => by simp [Ctx.lookup, ht], hi⟩

theorem Dec.sub {ctx : Ctx} (hl : ∀ t cls, identities .substrings t = some cls → ctx.lookup t = some cls)
    (p : SubKind × Bytes) {w : Bytes} (h : toWire (subObj p) = .ok w) : Dec ctx w (subObj p) := by
  obtain ⟨k, v⟩ := p
  cases k <;> simp only [subObj, toWire] at h ⊢
  · exact Dec.oct (t := 0x80) h (hl _ _ rfl) rfl
  · exact Dec.oct (t := 0x81) h (hl _ _ rfl) rfl
  · exact Dec.oct (t := 0x82) h (hl _ _ rfl) rfl

theorem Dec.mra {ctx : Ctx} (hf : FilterCtx ctx) (r t : Option Bytes) (v : Bytes) (d : Option Bool) {w : Bytes}
    (h : toWire (Filter.ext r t v d).build = .ok w) : Dec ctx w (Filter.ext r t v d).build := by
  simp only [Filter.build, toWire] at h ⊢
  obtain ⟨a, ha, h⟩ := bind_ok h
  obtain ⟨b, hb, h⟩ := bind_ok h
  obtain ⟨c, hc, h⟩ := bind_ok h
  obtain ⟨e, he, h⟩ := bind_ok h
  apply Dec.of_struct h rfl (hf.1 0x89 .fExt rfl)
  simp only [fromBER', fromBER]
  have hlk : ∀ t cls, identities .mra t = some cls →
      (Ctx.both .mra ctx.inherit ctx.inherit).lookup t = some cls := by
    intro t cls ht; simp [Ctx.lookup, ht]
  have hc' : Dec (.both .mra ctx.inherit ctx.inherit) c (.oct .mraValue 0x83 v) :=
    Dec.oct (t := 0x83) hc (hlk _ _ rfl) rfl
  have he' : DecL (.both .mra ctx.inherit ctx.inherit) e
      ((d.map fun b => Obj.bool .mraDn 0x84 (if b then 255 else 0)).toList) := by
    cases d with
    | none => simp only [Option.map_none, encOptBool, Except.ok.injEq] at he; subst he; exact DecL.nil _
    | some b =>
      simp only [Option.map_some, encOptBool] at he
      have := Dec.bool (t := 0x84) (cls := .mraDn) he (hlk _ _ rfl) (Or.inr rfl)
      cases b
      · exact DecL.one this
      · exact DecL.one this
  have hb' : ∀ x l, encOptBytes 0x82 t = .ok x → DecL (.both .mra ctx.inherit ctx.inherit) (c ++ e) l →
      DecL (.both .mra ctx.inherit ctx.inherit) (x ++ (c ++ e))
        ((t.map fun b => Obj.oct .mraType 0x82 b).toList ++ l) := by
    intro x l hx hl
    cases t with
    | none => simp only [encOptBytes, Except.ok.injEq] at hx; subst hx; exact hl
    | some b => exact DecL.cons (Dec.oct (t := 0x82) hx (hlk _ _ rfl) rfl) hl
  have ha' : ∀ l, DecL (.both .mra ctx.inherit ctx.inherit) (b ++ (c ++ e)) l →
      DecL (.both .mra ctx.inherit ctx.inherit) (a ++ (b ++ (c ++ e)))
        ((r.map fun b => Obj.oct .mraRule 0x81 b).toList ++ l) := by
    intro l hl
    cases r with
    | none => simp only [encOptBytes, Except.ok.injEq] at ha; subst ha; exact hl
    | some b => exact DecL.cons (Dec.oct (t := 0x81) ha (hlk _ _ rfl) rfl) hl
  have hall := ha' _ (hb' b _ hb (DecL.cons hc' he'))
  rw [DecL] at hall
  rw [hall]
  cases r <;> cases t <;> cases d <;> rfl

mutual
theorem Dec.filter (f : Filter) {ctx : Ctx} (hf : FilterCtx ctx) {w : Bytes} (h : toWire f.build = .ok w) :
    Dec ctx w f.build := by
  match f with
  | .and fs =>
    simp only [Filter.build, toWire] at h ⊢
    obtain ⟨c, hc, h⟩ := bind_ok h
    apply Dec.of_struct h rfl (hf.1 0x80 .fAnd rfl)
    have := DecL.filters fs (FilterCtx.fb hf.2) hc
    rw [DecL] at this
    simp only [fromBER', fromBER, this, bind, Except.bind, pure, Except.pure]
  | .or fs =>
    simp only [Filter.build, toWire] at h ⊢
    obtain ⟨c, hc, h⟩ := bind_ok h
    apply Dec.of_struct h rfl (hf.1 0x81 .fOr rfl)
    have := DecL.filters fs (FilterCtx.fb hf.2) hc
    rw [DecL] at this
    simp only [fromBER', fromBER, this, bind, Except.bind, pure, Except.pure]
  | .not f =>
    simp only [Filter.build, toWire] at h ⊢
    obtain ⟨c, hc, h⟩ := bind_ok h
    apply Dec.of_struct h rfl (hf.1 0x82 .fNot rfl)
    have := Dec.filter f (FilterCtx.both (c := ctx.inherit) hf.2) hc
    simp only [fromBER', fromBER, this.2, bind, Except.bind, pure, Except.pure, assert', decide_true, if_true]
  | .equal a v =>
    simp only [Filter.build] at h ⊢
    exact Dec.ava h rfl (hf.1 _ _ rfl) hf.2 (by simp)
  | .ge a v =>
    simp only [Filter.build] at h ⊢
    exact Dec.ava h rfl (hf.1 _ _ rfl) hf.2 (by simp)
  | .le a v =>
    simp only [Filter.build] at h ⊢
    exact Dec.ava h rfl (hf.1 _ _ rfl) hf.2 (by simp)
  | .approx a v =>
    simp only [Filter.build] at h ⊢
    exact Dec.ava h rfl (hf.1 _ _ rfl) hf.2 (by simp)
  | .present a =>
    simp only [Filter.build, toWire] at h ⊢
    exact Dec.oct (t := 0x87) h (hf.1 _ _ rfl) rfl
  | .ext r t v d => exact Dec.mra hf r t v d h
  | .substrings a ps =>
    simp only [Filter.build, toWire] at h ⊢
    obtain ⟨x, hx, h⟩ := bind_ok h
    obtain ⟨c, hc, h⟩ := bind_ok h
    obtain ⟨y, hy, h⟩ := bind_ok h
    apply Dec.of_struct h rfl (hf.1 0x84 .fSubstrings rfl)
    have hg : Good (.fb .substrings ctx.inherit) := Good.fb rfl hf.2
    have h1 : Dec (.fb .substrings ctx.inherit) x (Spec.octet a) := Dec.octet' hg hx
    have h2 : Dec (.fb .substrings ctx.inherit) y (.seq .sequence 0x10 (ps.map subObj)) := by
      apply Dec.seq hy rfl hg.seq (by simp)
      apply DecL.toWireList _ _ _ _ hc
      intro p _ w hw
      exact Dec.sub (fun t cls ht => by simp [Ctx.inherit, Ctx.lookup, ht]) p hw
    have h3 := DecL.cons h1 (DecL.one h2)
    rw [DecL] at h3
    have h4 : toWire (.seq .sequence 0x10 (ps.map subObj)) = .ok y := by
      simp only [toWire, hc, bind, Except.bind, hy]
    have h5 : 1 ≤ y.length := List.length_pos_iff.mpr (isElement_ne_nil h2.1)
    simp only [fromBER', fromBER, h3, h4, bind, Except.bind, pure, Except.pure, assert', h5, decide_true, if_true,
      Spec.octet, Obj.value, Obj.iter, Obj.data?]
theorem DecL.filters (fs : List Filter) {ctx : Ctx} (hf : FilterCtx ctx) {w : Bytes}
    (h : Ldap.toWireList (Filter.buildAll fs) = .ok w) : DecL ctx w (Filter.buildAll fs) := by
  match fs with
  | [] => simp only [Filter.buildAll, Ldap.toWireList, Except.ok.injEq] at h; subst h; exact DecL.nil ctx
  | f :: fs =>
    obtain ⟨a, b, ha, hb, rfl⟩ := toWireList_cons h
    exact DecL.cons (Dec.filter f hf ha) (DecL.filters fs hf hb)
end

end Verif.Ldap
