import Verif.Lemmas.Roundtrip
/-
Helper lemmas for C06: every operation, the controls and the message envelope.
-/
namespace Verif.Ldap
open Verif.Ber Verif.Spec

/-- The context in which the parts of a message are decoded. -/
def msgCtx : Ctx := .both .ldapMessage ldapCtx ldapCtx

theorem msgCtx_good : Good msgCtx := Good.both rfl Good.ldap Good.ldap

mutual
theorem readFilter_build (f : Filter) : readFilter f.build = some f := by
  match f with
  | .and fs => simp [Filter.build, readFilter, readFilters_build fs]
  | .or fs => simp [Filter.build, readFilter, readFilters_build fs]
  | .not f => simp [Filter.build, readFilter, readFilter_build f]
  | .equal a v => simp [Filter.build, readFilter, octVal, octet]
  | .ge a v => simp [Filter.build, readFilter, octVal, octet]
  | .le a v => simp [Filter.build, readFilter, octVal, octet]
  | .approx a v => simp [Filter.build, readFilter, octVal, octet]
  | .present a => simp [Filter.build, readFilter]
  | .ext r t v d =>
    cases d with
    | none => simp [Filter.build, readFilter]
    | some b => cases b <;> simp [Filter.build, readFilter]
  | .substrings a ps =>
    have : allSome readSub (ps.map subObj) = some (ps.map id) := by
      apply allSome_map
      intro ⟨k, v⟩ _
      cases k <;> rfl
    simp [Filter.build, readFilter, asBytes, this]
theorem readFilters_build (fs : List Filter) : readFilters (Filter.buildAll fs) = some fs := by
  match fs with
  | [] => rfl
  | f :: fs => simp [Filter.buildAll, readFilters, readFilter_build f, readFilters_build fs]
end

theorem allSome_octet (l : List Bytes) : allSome octVal (l.map octet) = some l := by
  have := allSome_map octVal octet id l (fun _ _ => rfl)
  simpa using this

theorem allSome_bytes (l : List Bytes) : allSome asBytes (l.map .bytes) = some l := by
  have := allSome_map asBytes PyVal.bytes id l (fun _ _ => rfl)
  simpa using this

theorem boolVal_asBool (b : Bool) : asBool (.int (if (if b then (1 : Int) else 0) = 0 then 0 else 255)) = some b := by
  cases b <;> rfl

/-- Reading `.value` of a list of octet strings. -/
theorem mapM'_octets (l : List Bytes) : mapM' Obj.value (l.map octet) = .ok (l.map .bytes) :=
  mapM'_ok Obj.value octet PyVal.bytes l (fun _ _ => rfl)

theorem DecL.octets {ctx : Ctx} (hg : Good ctx) (l : List Bytes) {w : Bytes}
    (h : Ldap.joinM ((l.map PyVal.bytes).map (encOct 0x04)) = .ok w) : DecL ctx w (l.map Spec.octet) := by
  rw [List.map_map] at h
  exact DecL.joinM _ _ _ (fun _ _ _ hw => Dec.octet' hg hw) h

theorem DecL.octObjs {ctx : Ctx} (hg : Good ctx) (l : List Bytes) {w : Bytes}
    (h : Ldap.toWireList (l.map Spec.octet) = .ok w) : DecL ctx w (l.map Spec.octet) :=
  DecL.toWireList _ _ _ (fun _ _ _ hw => Dec.octet hg hw) h

theorem Dec.setObj {ctx : Ctx} (hg : Good ctx) (l : List Bytes) {w : Bytes}
    (h : toWire (Spec.setObj (l.map Spec.octet)) = .ok w) : Dec ctx w (Spec.setObj (l.map Spec.octet)) := by
  simp only [Spec.setObj, toWire] at h
  obtain ⟨c, hc, h⟩ := bind_ok h
  exact Dec.seq h rfl hg.set (by simp) (DecL.octObjs hg.inherit l hc)

theorem Dec.seqObj {ctx : Ctx} (hg : Good ctx) (l : List Obj) {w : Bytes}
    (hl : ∀ c, Ldap.toWireList l = .ok c → DecL ctx.inherit c l)
    (h : toWire (Spec.seqObj l) = .ok w) : Dec ctx w (Spec.seqObj l) := by
  simp only [Spec.seqObj, toWire] at h
  obtain ⟨c, hc, h⟩ := bind_ok h
  exact Dec.seq h rfl hg.seq (by simp) (hl c hc)

theorem DecL.two {ctx : Ctx} {a b : Obj} (ha : ∀ w, toWire a = .ok w → Dec ctx w a)
    (hb : ∀ w, toWire b = .ok w → Dec ctx w b) (c : Bytes) (h : Ldap.toWireList [a, b] = .ok c) :
    DecL ctx c [a, b] := by
  obtain ⟨x, y, hx, hy, rfl⟩ := toWireList_cons h
  obtain ⟨y', z, hy', hz, rfl⟩ := toWireList_cons hy
  simp only [Ldap.toWireList, Except.ok.injEq] at hz
  subst hz
  rw [List.append_nil]
  exact DecL.cons (ha x hx) (DecL.one (hb y' hy'))

theorem Dec.attrObj {ctx : Ctx} (hg : Good ctx) (kv : Bytes × List Bytes) {w : Bytes}
    (h : toWire (Spec.attrObj kv) = .ok w) : Dec ctx w (Spec.attrObj kv) := by
  unfold Spec.attrObj at h ⊢
  exact Dec.seqObj hg _ (DecL.two (fun w hw => Dec.octet hg.inherit hw)
    (fun w hw => Dec.setObj hg.inherit _ hw)) h

theorem Dec.changeObj {ctx : Ctx} (hg : Good ctx) (c : Int × Bytes × List Bytes) {w : Bytes}
    (h : toWire (Spec.changeObj c) = .ok w) : Dec ctx w (Spec.changeObj c) := by
  unfold Spec.changeObj at h ⊢
  refine Dec.seqObj hg _ (DecL.two (fun w hw => ?_) (fun w hw => ?_)) h
  · simp only [toWire] at hw
    exact Dec.int (t := 0x0A) hw hg.inherit.enum (by simp)
  · exact Dec.seqObj hg.inherit _ (DecL.two (fun w hw => Dec.octet hg.inherit.inherit hw)
      (fun w hw => Dec.setObj hg.inherit.inherit _ hw)) hw

theorem readAttrObj_attrObj (kv : Bytes × List Bytes) : readAttrObj (attrObj kv) = some kv := by
  simp [readAttrObj, attrObj, seqObj, setObj, allSome_octet]
  simp [octet, octVal]

theorem readChange_changeObj (c : Int × Bytes × List Bytes) : readChange (changeObj c) = some c := by
  simp [readChange, changeObj, seqObj, setObj, allSome_octet]
  simp [octet, octVal]

/-- The three leading fields of every result. -/
theorem DecL.result {ctx : Ctx} (hg : Good ctx) {code : Int} {m e : Bytes} {a b c : Bytes}
    (ha : encInt 0x0A (.int code) = .ok a) (hb : encOct 0x04 (.bytes m) = .ok b)
    (hc : encOct 0x04 (.bytes e) = .ok c) {rest : Bytes} {os : List Obj} (hr : DecL ctx rest os) :
    DecL ctx (a ++ (b ++ (c ++ rest))) (.int .enumerated 0x0A code :: Spec.octet m :: Spec.octet e :: os) :=
  DecL.cons (Dec.int (t := 0x0A) ha hg.enum (by simp)) (DecL.cons (Dec.octet' hg hb) (DecL.cons (Dec.octet' hg hc) hr))

theorem DecL.opt {ctx : Ctx} {t : UInt8} {cls : Cls} (hl : ctx.lookup (t &&& 0xDF) = some cls)
    (hc : octLike cls = true) (v : Option Bytes) {w : Bytes} (h : encOpt (encOct t) (optVal v) = .ok w)
    {rest : Bytes} {os : List Obj} (hr : DecL ctx rest os) :
    DecL ctx (w ++ rest) ((v.map fun b => Obj.oct cls (t &&& 0xDF) b).toList ++ os) := by
  cases v with
  | none => simp only [encOpt, optVal, if_true, Except.ok.injEq] at h; subst h; exact hr
  | some b => exact DecL.cons (Dec.oct h hl hc) hr

theorem DecL.truthy {ctx : Ctx} {t : UInt8} {cls : Cls} (hl : ctx.lookup (t &&& 0xDF) = some cls)
    (hc : octLike cls = true) (v : Option Bytes) (hv : v ≠ some []) {w : Bytes}
    (h : encTruthy (encOct t) (optVal v) = .ok w) :
    DecL ctx w ((v.map fun b => Obj.oct cls (t &&& 0xDF) b).toList) := by
  cases v with
  | none => simp only [encTruthy, optVal, PyVal.truthy] at h; cases h; exact DecL.nil ctx
  | some b =>
    have : b ≠ [] := fun e => hv (by rw [e])
    simp only [encTruthy, optVal, PyVal.truthy, decide_eq_true this, if_true] at h
    exact DecL.one (Dec.oct h hl hc)

theorem toWireSeq_attrObj (kv : Bytes × List Bytes) : toWireSeq (attrObj kv) = toWire (attrObj kv) := by
  simp only [attrObj, seqObj, toWireSeq, toWire]

theorem toWireSeqs_attrObjs (l : List (Bytes × List Bytes)) :
    toWireSeqs (l.map attrObj) = toWireList (l.map attrObj) := by
  induction l with
  | nil => rfl
  | cons x xs ih => simp only [List.map_cons, toWireSeqs, toWireList, toWireSeq_attrObj, ih]

theorem encAttr_dec {ctx : Ctx} (hg : Good ctx) (kv : Bytes × List Bytes) {w : Bytes}
    (h : encAttr (.bytes kv.1, kv.2.map .bytes) = .ok w) : Dec ctx w (Spec.attrObj kv) := by
  simp only [encAttr] at h
  obtain ⟨k, hk, h⟩ := bind_ok h
  obtain ⟨c, hc, h⟩ := bind_ok h
  obtain ⟨s, hs, h⟩ := bind_ok h
  have hset : Dec ctx.inherit s (Spec.setObj (kv.2.map Spec.octet)) :=
    Dec.seq hs rfl hg.inherit.set (by simp) (DecL.octets hg.inherit.inherit _ hc)
  exact Dec.seq h rfl hg.seq (by simp) (DecL.cons (Dec.octet' hg.inherit hk) (DecL.one hset))

theorem entryAttr_attrObj (kv : Bytes × List Bytes) :
    entryAttr (attrObj kv) = .ok (.bytes kv.1, kv.2.map .bytes) := by
  simp only [entryAttr, attrObj, seqObj, setObj, Obj.iter, Obj.data?, bind, Except.bind, pure, Except.pure,
    mapM'_octets]
  simp only [octet, Obj.value]

/-- The object that arrives for an operation: as it was built, but truth values have become 0 or 255, and the URIs of a
reference are of another class. -/
def received : Op → Obj
  | .search base scope deref sl tl to f as => .searchRequest 0x43 (.bytes base) (.int scope) (.int deref) (.int sl) (.int tl)
      (.int (if (if to then (1:Int) else 0) = 0 then 0 else 255)) f.build (as.map .bytes)
  | .modifyDN dn n del s => .modifyDN 0x4C (.bytes dn) (.bytes n) (.int (if (if del then (1:Int) else 0) = 0 then 0 else 255)) (optVal s)
  | .reference us => .searchReference 0x53 (us.map fun u => .oct .ldapString 0x04 u)
  | op => op.build

/-- Every operation survives the wire. -/
theorem dec_op (op : Op) (hwf : Op.WF op) {w : Bytes} (h : toWire op.build = .ok w) :
    ∃ o, o = received op ∧ Dec msgCtx w o ∧ readOp o = some op := by
  have hI : msgCtx.inherit = ldapCtx := rfl
  have hL : Good ldapCtx := Good.ldap
  cases op with
  | bindSimple v dn p =>
    simp only [Op.build, toWire] at h
    obtain ⟨a, ha, h⟩ := bind_ok h
    obtain ⟨b, hb, h⟩ := bind_ok h
    obtain ⟨c, hc, h⟩ := bind_ok h
    have hg : Good (.fb .bindRequest ldapCtx) := Good.fb rfl hL
    have hd := DecL.cons (Dec.int (t := 0x02) ha hg.int (by simp)) (DecL.cons (Dec.octet' hg hb)
      (DecL.one (Dec.oct (t := 0x80) (cls := .octetString) hc rfl rfl)))
    refine ⟨.bind 0x40 (.int v) (.bytes dn) (.simple (.bytes p)),
      rfl, Dec.of_struct (cls := .bindRequest) h rfl rfl ?_, rfl⟩
    rw [hI, fromBER', fromBER, hd]; rfl
  | bindSasl v dn m cr =>
    simp only [Op.build, toWire, encAuth] at h
    obtain ⟨a, ha, h⟩ := bind_ok h
    obtain ⟨b, hb, h⟩ := bind_ok h
    obtain ⟨c, hc, h⟩ := bind_ok h
    obtain ⟨m', hm', hc⟩ := bind_ok hc
    obtain ⟨c', hc', hc⟩ := bind_ok hc
    have hg : Good (.fb .bindRequest ldapCtx) := Good.fb rfl hL
    have hcr := DecL.truthy (ctx := .fb .bindRequest ldapCtx) (t := 0x04) (cls := .octetString) hg.oct rfl cr hwf hc'
    have hs : Dec (.fb .bindRequest ldapCtx) c (.seq .sequence 0x83 _) :=
      Dec.seq hc rfl rfl (by simp) (DecL.cons (Dec.octet' hg hm') hcr)
    have hd := DecL.cons (Dec.int (t := 0x02) ha hg.int (by simp)) (DecL.cons (Dec.octet' hg hb) (DecL.one hs))
    refine ⟨.bind 0x40 (.int v) (.bytes dn) (.sasl (.bytes m) (optVal cr)),
      rfl, Dec.of_struct (cls := .bindRequest) h rfl rfl ?_, ?_⟩
    · rw [hI, fromBER', fromBER, hd]; cases cr <;> rfl
    · cases cr <;> rfl
  | bindResponse code m e s =>
    simp only [Op.build, toWire] at h
    obtain ⟨a, ha, h⟩ := bind_ok h
    obtain ⟨b, hb, h⟩ := bind_ok h
    obtain ⟨c, hc, h⟩ := bind_ok h
    obtain ⟨d, hd, h⟩ := bind_ok h
    have hg : Good (.fb .bindResponse ldapCtx) := Good.fb rfl hL
    have hcr := DecL.truthy (ctx := .fb .bindResponse ldapCtx) (t := 0x87) (cls := .saslCreds) rfl rfl s hwf hd
    have hall := DecL.result hg ha hb hc hcr
    refine ⟨.result .bindResponse 0x41 (.int code) (.bytes m) (.bytes e) (optVal s),
      rfl, Dec.of_struct (cls := .bindResponse) h rfl rfl ?_, ?_⟩
    · rw [hI, fromBER', fromBER, hall]; cases s <;> rfl
    · cases s <;> rfl
  | unbind =>
    simp only [Op.build, toWire] at h
    rw [← tlv_empty] at h
    exact ⟨.null .unbindRequest 0x42, rfl, Dec.of_tlv (cls := .unbindRequest) h rfl rfl, rfl⟩
  | search base scope deref sl tl to f as =>
    simp only [Op.build, toWire] at h
    obtain ⟨a, ha, h⟩ := bind_ok h
    obtain ⟨b, hb, h⟩ := bind_ok h
    obtain ⟨c, hc, h⟩ := bind_ok h
    obtain ⟨d, hd, h⟩ := bind_ok h
    obtain ⟨e, he, h⟩ := bind_ok h
    obtain ⟨f', hf, h⟩ := bind_ok h
    obtain ⟨g, hg', h⟩ := bind_ok h
    obtain ⟨i, hi, h⟩ := bind_ok h
    obtain ⟨j, hj, h⟩ := bind_ok h
    have hg : Good (.both .filter ldapCtx ldapCtx) := Good.both rfl hL hL
    have hfi := Dec.filter f (FilterCtx.both (c := ldapCtx) hL) hg'
    have hat : Dec (.both .filter ldapCtx ldapCtx) j (.seq .sequence 0x10 (as.map Spec.octet)) :=
      Dec.seq hj rfl hg.seq (by simp) (DecL.octets hg.inherit as hi)
    have hall := DecL.cons (Dec.octet' hg ha) (DecL.cons (Dec.int (t := 0x0A) hb hg.enum (by simp))
      (DecL.cons (Dec.int (t := 0x0A) hc hg.enum (by simp)) (DecL.cons (Dec.int (t := 0x02) hd hg.int (by simp))
      (DecL.cons (Dec.int (t := 0x02) he hg.int (by simp)) (DecL.cons (Dec.bool (t := 0x01) hf hg.bool (by simp))
      (DecL.cons hfi (DecL.one hat)))))))
    refine ⟨.searchRequest 0x43 (.bytes base) (.int scope) (.int deref) (.int sl) (.int tl)
      (.int (if (if to then (1:Int) else 0) = 0 then 0 else 255)) f.build (as.map .bytes),
      rfl, Dec.of_struct (cls := .searchRequest) h rfl rfl ?_, ?_⟩
    · rw [hI, fromBER', fromBER, hall]
      simp only [bind, Except.bind, pure, Except.pure, Spec.octet, Obj.value, Obj.iter, Obj.data?]
      rw [mapM'_octets as]
    · simp only [readOp, asBytes, asInt, boolVal_asBool, readFilter_build, allSome_bytes]
      rfl
  | entry dn as =>
    simp only [Op.build, toWire] at h
    obtain ⟨a, ha, h⟩ := bind_ok h
    obtain ⟨b, hb, h⟩ := bind_ok h
    obtain ⟨c, hc, h⟩ := bind_ok h
    rw [List.map_map] at hb
    have hg : Good (.both .filter ldapCtx ldapCtx) := Good.both rfl hL hL
    have hs : Dec (.both .filter ldapCtx ldapCtx) c (.seq .sequence 0x10 (as.map attrObj)) :=
      Dec.seq hc rfl hg.seq (by simp) (DecL.joinM _ _ _ (fun kv _ w hw => encAttr_dec hg.inherit kv hw) hb)
    have hall := DecL.cons (Dec.octet' hg ha) (DecL.one hs)
    refine ⟨.searchEntry 0x44 (.bytes dn) (as.map fun kv => (.bytes kv.1, kv.2.map .bytes)),
      rfl, Dec.of_struct (cls := .searchResultEntry) h rfl rfl ?_, ?_⟩
    · rw [hI, fromBER', fromBER, hall]
      have := mapM'_ok entryAttr attrObj (fun kv => (PyVal.bytes kv.1, kv.2.map PyVal.bytes)) as
        (fun kv _ => entryAttr_attrObj kv)
      simp only [bind, Except.bind, pure, Except.pure, nth, List.getElem?_cons_zero, List.getElem?_cons_succ,
        Spec.octet, Obj.value, Obj.data?, this]
    · have : allSome readEntryAttr (as.map fun kv => (PyVal.bytes kv.1, kv.2.map PyVal.bytes)) = some (as.map id) := by
        apply allSome_map
        intro kv _
        simp [readEntryAttr, asBytes, allSome_bytes]
      simp [readOp, asBytes, this]
  | reference us =>
    simp only [Op.build, toWire] at h
    obtain ⟨a, ha, h⟩ := bind_ok h
    have hd : DecL (.fb .searchReference ldapCtx) a (us.map fun u => .oct .ldapString 0x04 u) := by
      apply DecL.toWireList _ _ _ _ ha
      intro u _ w hw
      simp only [Spec.octet, toWire] at hw
      exact Dec.oct (t := 0x04) hw rfl rfl
    refine ⟨.searchReference 0x53 (us.map fun u => .oct .ldapString 0x04 u),
      rfl, Dec.of_struct (cls := .searchResultReference) h rfl rfl ?_, ?_⟩
    · rw [hI, fromBER', fromBER, hd]; rfl
    · have : allSome octVal (us.map fun u => Obj.oct .ldapString 0x04 u) = some (us.map id) :=
        allSome_map _ _ _ _ (fun _ _ => rfl)
      simp [readOp, this]
  | result k code m e =>
    simp only [Op.build, toWire] at h
    obtain ⟨a, ha, h⟩ := bind_ok h
    obtain ⟨b, hb, h⟩ := bind_ok h
    obtain ⟨c, hc, h⟩ := bind_ok h
    obtain ⟨d, hd, h⟩ := bind_ok h
    simp only [encTruthy, PyVal.truthy] at hd
    cases hd
    have hg : Good (.fb .bindRequest ldapCtx) := Good.fb rfl hL
    have hall := DecL.result hg ha hb hc (DecL.nil _)
    refine ⟨.result k.cls k.tag (.int code) (.bytes m) (.bytes e) .none,
      rfl, Dec.of_struct (cls := k.cls) h (by cases k <;> rfl) (by cases k <;> rfl) ?_, ?_⟩
    · rw [hI, fromBER']
      cases k <;> simp only [ResultKind.cls, fromBER] <;> rw [hall] <;> rfl
    · cases k <;> rfl
  | modify dn cs =>
    simp only [Op.build, toWire] at h
    obtain ⟨a, ha, h⟩ := bind_ok h
    obtain ⟨b, hb, h⟩ := bind_ok h
    obtain ⟨c, hc, h⟩ := bind_ok h
    have hs : Dec ldapCtx c (.seq .sequence 0x10 (cs.map changeObj)) :=
      Dec.seq hc rfl hL.seq (by simp)
        (DecL.toWireList _ _ _ (fun x _ w hw => Dec.changeObj hL.inherit x hw) hb)
    have hall := DecL.cons (Dec.octet' hL ha) (DecL.one hs)
    refine ⟨.modifyRequest 0x46 (.bytes dn) (cs.map changeObj), rfl, Dec.of_struct (cls := .modifyRequest) h rfl rfl ?_, ?_⟩
    · rw [hI, fromBER', fromBER, hall]; rfl
    · have : allSome readChange (cs.map changeObj) = some (cs.map id) :=
        allSome_map _ _ _ _ (fun x _ => readChange_changeObj x)
      simp [readOp, asBytes, this]
  | add dn as =>
    simp only [Op.build, toWire] at h
    obtain ⟨a, ha, h⟩ := bind_ok h
    obtain ⟨b, hb, h⟩ := bind_ok h
    simp only [seqObj, toWireAttrs] at hb
    obtain ⟨c, hc, hb⟩ := bind_ok hb
    rw [toWireSeqs_attrObjs] at hc
    have hs : Dec ldapCtx b (.seq .sequence 0x10 (as.map attrObj)) :=
      Dec.seq hb rfl hL.seq (by simp)
        (DecL.toWireList _ _ _ (fun x _ w hw => Dec.attrObj hL.inherit x hw) hc)
    have hall := DecL.cons (Dec.octet' hL ha) (DecL.one hs)
    refine ⟨.addRequest 0x48 (.bytes dn) (.seq .sequence 0x10 (as.map attrObj)),
      rfl, Dec.of_struct (cls := .addRequest) h rfl rfl ?_, ?_⟩
    · rw [hI, fromBER', fromBER, hall]; rfl
    · have : allSome readAttrObj (as.map attrObj) = some (as.map id) :=
        allSome_map _ _ _ _ (fun x _ => readAttrObj_attrObj x)
      simp [readOp, asBytes, this]
  | delete dn =>
    simp only [Op.build, toWire] at h
    exact ⟨.oct .delRequest 0x4A dn, rfl, Dec.oct (t := 0x4A) h rfl rfl, rfl⟩
  | modifyDN dn n del s =>
    simp only [Op.build, toWire, boolVal] at h
    obtain ⟨a, ha, h⟩ := bind_ok h
    obtain ⟨b, hb, h⟩ := bind_ok h
    obtain ⟨c, hc, h⟩ := bind_ok h
    obtain ⟨d, hd, h⟩ := bind_ok h
    have hg : Good (.fb .modifyDN ldapCtx) := Good.fb rfl hL
    have hsup := DecL.opt (ctx := .fb .modifyDN ldapCtx) (t := 0x80) (cls := .newSuperior) rfl rfl s hd (DecL.nil _)
    rw [List.append_nil, List.append_nil] at hsup
    have hall := DecL.cons (Dec.octet' hg ha) (DecL.cons (Dec.octet' hg hb)
      (DecL.cons (Dec.bool (t := 0x01) hc hg.bool (by simp)) hsup))
    refine ⟨.modifyDN 0x4C (.bytes dn) (.bytes n) (.int (if (if del then (1:Int) else 0) = 0 then 0 else 255)) (optVal s),
      rfl, Dec.of_struct (cls := .modifyDNRequest) h rfl rfl ?_, ?_⟩
    · rw [hI, fromBER', fromBER, hall]; cases s <;> rfl
    · simp only [readOp, asBytes, boolVal_asBool]
      cases s <;> rfl
  | compare dn at' v =>
    simp only [Op.build] at h
    rw [toWire] at h
    obtain ⟨a, ha, h⟩ := bind_ok h
    obtain ⟨b, hb, h⟩ := bind_ok h
    have h1 : Dec (.both .compare ldapCtx ldapCtx) a (Spec.octet dn) := Dec.oct (t := 0x04) ha rfl rfl
    have h2 : Dec (.both .compare ldapCtx ldapCtx) b (.ava .ava 0x10 (Spec.octet at') (Spec.octet v)) :=
      Dec.ava hb rfl rfl hL (by simp)
    have hall := DecL.cons h1 (DecL.one h2)
    refine ⟨.compare 0x4E (.bytes dn) (.ava .ava 0x10 (Spec.octet at') (Spec.octet v)),
      rfl, Dec.of_struct (cls := .compareRequest) h rfl rfl ?_, rfl⟩
    rw [hI, fromBER', fromBER, hall]; rfl
  | abandon i =>
    simp only [Op.build, toWire] at h
    exact ⟨.int .abandonRequest 0x50 i, rfl, Dec.int (t := 0x50) h rfl (by simp), rfl⟩
  | extRequest n v =>
    simp only [Op.build, toWire] at h
    obtain ⟨a, ha, h⟩ := bind_ok h
    obtain ⟨b, hb, h⟩ := bind_ok h
    have hv := DecL.opt (ctx := .fb .extRequest ldapCtx) (t := 0x81) (cls := .octetString) rfl rfl v hb (DecL.nil _)
    rw [List.append_nil, List.append_nil] at hv
    have hall := DecL.cons (ctx := .fb .extRequest ldapCtx) (Dec.oct (t := 0x80) (cls := .octetString) ha rfl rfl) hv
    refine ⟨.extRequest 0x57 (.bytes n) (optVal v), rfl, Dec.of_struct (cls := .extendedRequest) h rfl rfl ?_, ?_⟩
    · rw [hI, fromBER', fromBER, hall]; cases v <;> rfl
    · cases v <;> rfl
  | extResponse code m e n v =>
    simp only [Op.build, toWire] at h
    obtain ⟨a, ha, h⟩ := bind_ok h
    obtain ⟨b, hb, h⟩ := bind_ok h
    obtain ⟨c, hc, h⟩ := bind_ok h
    obtain ⟨d, hd, h⟩ := bind_ok h
    obtain ⟨f, hf, h⟩ := bind_ok h
    have hg : Good (.fb .extResponse ldapCtx) := Good.fb rfl hL
    have hv := DecL.opt (ctx := .fb .extResponse ldapCtx) (t := 0x8B) (cls := .response) rfl rfl v hf (DecL.nil _)
    rw [List.append_nil, List.append_nil] at hv
    have hn := DecL.opt (ctx := .fb .extResponse ldapCtx) (t := 0x8A) (cls := .responseName) rfl rfl n hd hv
    have hall := DecL.result hg ha hb hc hn
    refine ⟨.extResponse 0x58 (.int code) (.bytes m) (.bytes e) (optVal n) (optVal v),
      rfl, Dec.of_struct (cls := .extendedResponse) h rfl rfl ?_, ?_⟩
    · rw [hI, fromBER', fromBER, hall]; cases n <;> cases v <;> rfl
    · cases n <;> cases v <;> rfl

theorem boolVal_asOptBool (b : Bool) :
    asOptBool (.int (if (if b then (1 : Int) else 0) = 0 then 0 else 255)) = some (some b) := by
  cases b <;> rfl

/-- The values of a control after decoding: a truth value has become 0 or 255. -/
def Control.decoded (c : Control) : PyVal × PyVal × PyVal :=
  (.bytes c.oid,
    (match c.critical with
      | some b => .int (if (if b then (1 : Int) else 0) = 0 then 0 else 255)
      | none => .none), optVal c.value)

theorem dec_control {ctx : Ctx} (hl : ctx.lookup 0x10 = some .control) (hg : Good ctx.inherit) (c : Control) {w : Bytes}
    (h : encControl 0x10 c.vals.1 c.vals.2.1 c.vals.2.2 = .ok w) :
    Dec ctx w (.control 0x10 (Control.decoded c).1 (Control.decoded c).2.1 (Control.decoded c).2.2) := by
  obtain ⟨oid, crit, val⟩ := c
  simp only [Control.vals, encControl] at h
  obtain ⟨x, hx, h⟩ := bind_ok h
  obtain ⟨y, hy, h⟩ := bind_ok h
  obtain ⟨z, hz, h⟩ := bind_ok h
  apply Dec.of_struct h rfl hl
  have hv := DecL.opt (t := 0x04) hg.oct rfl val hz (DecL.nil _)
  rw [List.append_nil, List.append_nil] at hv
  rw [fromBER', fromBER]
  cases crit with
  | none =>
    simp only [encOpt, if_true, Except.ok.injEq] at hy
    subst hy
    have hall := DecL.cons (Dec.octet' hg hx) hv
    rw [List.nil_append, hall]
    cases val <;> rfl
  | some b =>
    have hall := DecL.cons (Dec.octet' hg hx) (DecL.cons (Dec.bool (t := 0x01) hy hg.bool (by simp)) hv)
    rw [hall]
    cases val <;> rfl

theorem readControl_decoded (c : Control) : readControl (Control.decoded c) = some c := by
  obtain ⟨oid, crit, val⟩ := c
  cases crit with
  | none => cases val <;> rfl
  | some b => cases b <;> cases val <;> rfl

/-- Every message survives the wire. -/
theorem dec_message (m : Msg) (hwf : Op.WF m.op) {w : Bytes} (h : toWire m.build = .ok w) :
    ∃ o, o = Obj.message (.int m.id) (received m.op) (m.controls.map (·.map Control.decoded)) ∧ Dec topCtx w o ∧ readMsg o = some m := by
  obtain ⟨id, op, cs⟩ := m
  simp only [Msg.build, toWire] at h
  obtain ⟨a, ha, h⟩ := bind_ok h
  obtain ⟨b, hb, h⟩ := bind_ok h
  obtain ⟨c, hc, hfin⟩ := bind_ok h
  obtain ⟨o, rfl, ho, hr⟩ := dec_op op hwf hb
  have hid := Dec.int (t := 0x02) ha msgCtx_good.int (by simp)
  have hinh : topCtx.inherit = msgCtx := rfl
  cases cs with
  | none =>
    simp only [Option.map_none, encControls, Except.ok.injEq] at hc
    subst hc
    have hall := DecL.cons hid (DecL.one ho)
    refine ⟨.message (.int id) (received op) none, rfl, Dec.of_struct (cls := .message) hfin rfl rfl ?_, ?_⟩
    · rw [hinh, fromBER', fromBER, List.append_nil, hall]; rfl
    · simp only [readMsg, asInt, hr, readControls]; rfl
  | some l =>
    simp only [Option.map_some, encControls, List.map_map] at hc
    obtain ⟨d, hd, hc⟩ := bind_ok hc
    have hcs : Dec msgCtx c (.seq .controls 0x80 (l.map fun c =>
        .control 0x10 (Control.decoded c).1 (Control.decoded c).2.1 (Control.decoded c).2.2)) := by
      apply Dec.of_struct (cls := .controls) hc rfl rfl
      have hl : DecL (.inh .controls ldapCtx) d (l.map fun c =>
          .control 0x10 (Control.decoded c).1 (Control.decoded c).2.1 (Control.decoded c).2.2) := by
        apply DecL.joinM _ _ _ _ hd
        intro c _ w hw
        exact dec_control (ctx := .inh .controls ldapCtx) rfl Good.ldap c hw
      have hI : msgCtx.inherit = ldapCtx := rfl
      rw [hI, fromBER', fromBER, hl]; rfl
    have hall := DecL.cons hid (DecL.cons ho (DecL.one hcs))
    refine ⟨.message (.int id) (received op) (some (l.map Control.decoded)), rfl, Dec.of_struct (cls := .message) hfin rfl rfl ?_, ?_⟩
    · rw [hinh, fromBER', fromBER, hall]
      have := mapM'_ok controlVals
        (fun c => Obj.control 0x10 (Control.decoded c).1 (Control.decoded c).2.1 (Control.decoded c).2.2)
        Control.decoded l (fun c _ => rfl)
      simp only [bind, Except.bind, pure, Except.pure, nth, List.getElem?_cons_zero, List.getElem?_cons_succ,
        Obj.value, messageControls, List.length_cons, List.length_nil, Obj.iter, Obj.data?, this, assert']
      rfl
    · have : allSome readControl (l.map Control.decoded) = some (l.map _root_.id) :=
        allSome_map _ _ _ _ (fun c _ => readControl_decoded c)
      simp [readMsg, asInt, hr, readControls, this]

end Verif.Ldap
