import Verif.Lemmas.ServerSearch
import Verif.Props.C41
/-
C67  A search request is answered with exactly the matching entries and the attributes asked for.

The hypotheses: the directory came about by requests other than ModifyDN (`Built`), the filter can be evaluated on the
entries in scope, the entries in scope have ASCII attribute names, none of them twice, and values of one kind (text or
octets) per attribute; the request is not the one for the root DSE (`root_dse`), and has no critical control (C41).
-/
namespace Verif.C67
open Verif.Ldap Verif.Spec Verif.Server Verif.Tree

/-- The directory of a server after some requests, starting from a single entry; no ModifyDN among them. -/
inductive Built (env : Env) : Heap → Prop where
  | start (e) : Built env (single e)
  | step {st luck id request cs s} : Built env st.heap → ¬ IsModifyDN request →
      serve env luck st (.message id request cs) = some s → Built env s.state.heap

theorem Built.inv {env : Env} {h : Heap} (hb : Built env h) : Inv h ∧ Rooted h 0 := by
  induction hb with
  | start e => exact single_inv e
  | step _ hm hs ih =>
    rename_i st luck id request cs s _
    simp only [serve] at hs
    split at hs
    · split at hs
      · cases hs; exact ih
      · cases hs; exact call_inv ih.1 ih.2 hm
    · cases hs

/-- Scopes in requests, RFC 4511 section 4.5.1.2. -/
inductive ScopeCode : Int → Scope → Prop where
  | base : ScopeCode 0 .base
  | one : ScopeCode 1 .one
  | sub : ScopeCode 2 .sub

/-- An entry that can be sent. -/
structure Sendable (e : Entry) (wanted : List Bytes) : Prop where
  named : WellNamed e
  kinds : ∀ k vs, (k, vs) ∈ e.attrs → OneKind vs
  modest : Modest e wanted

/-- The entry with its attributes is what is to be sent for the node. -/
def Shows (h : Heap) (wanted : List Bytes) (k : Nat) (op : Op) : Prop :=
  ∃ n l, h[k]? = some n ∧ op = .entry (Utf8.encode n.entry.dn.text) l ∧ Shown n.entry wanted l

/-- A search is answered with the entries in scope that match, each once, parents first, showing the attributes asked for,
and then `success`; it changes nothing. -/
theorem search_answered (env : Env) (hU : Sane env.U) (luck : Luck) (st : State) (hb : Built env st.heap) (i : Int)
    (hi : 0 < i ∧ i < 2 ^ 31) (t : UInt8) (base : Bytes) (scope : Int) (deref sl tl ty : PyVal) (f : Spec.Filter)
    (wanted : List Bytes) (hw : ∀ k ∈ wanted, (PyStr.bytes k).Ascii) (cs : C41.Controls) (hcs : ¬ C41.HasCritical cs)
    (sc : Scope) (hsc : ScopeCode scope sc) (hdse : base ≠ [] ∨ scope ≠ 0) (text : Str) (d : Dn.Dn)
    (htext : Utf8.decode base = .ok text) (hd : Dn.Dn.parse env.U text = .ok d) (j : Nat)
    (hj : lookup env.U st.heap 0 d = .ok j) (hlt : j < st.heap.length) (hev : C26.Evaluable env.U st.heap f.sem j sc)
    (hent : ∀ k n, C26.InScope st.heap j sc k → st.heap[k]? = some n → Sendable n.entry wanted) :
    ∃ (s : Served) (l : List (Nat × Op)),
      serve env luck st (.message (.int i) (.searchRequest t (.bytes base) (.int scope) deref sl tl ty f.build
        (wanted.map .bytes)) (some cs)) = some s ∧ s.state = st ∧
      s.sent = (l.map Prod.snd ++ [Op.result .searchDone 0 [] []]).map (fun op => (PyVal.int i, op.build)) ∧
      (∀ x ∈ l, Shows st.heap wanted x.1 x.2) ∧
      (∀ k, k ∈ l.map (·.1) ↔ C26.InScope st.heap j sc k ∧ C26.Matches env.U st.heap f.sem k) ∧ (l.map (·.1)).Nodup ∧
      (l.map (·.1)).Pairwise (fun a b => ¬ Below st.heap b a) ∧ ∀ x ∈ s.sent, encodes x.1 x.2 = true := by
  have hv := hb.inv.1
  have hexists : ∀ k, C26.InScope st.heap j sc k → ∃ n, st.heap[k]? = some n := by
    intro k hk
    cases sc with
    | base => cases hk; exact ⟨_, List.getElem?_eq_getElem hlt⟩
    | one =>
      obtain ⟨_, n, hn, hc⟩ := hk
      obtain ⟨_, m, _, hm, _⟩ := hv.links _ _ _ _ hn hc
      exact ⟨m, hm⟩
    | sub => exact ⟨_, List.getElem?_eq_getElem (Below.lt_length hv hk hlt)⟩
  have hsend : ∀ k, C26.InScope st.heap j sc k → ∃ n l, st.heap[k]? = some n ∧ Shown n.entry wanted l ∧
      resultEntry env (wanted.map .bytes) (entryAt st.heap k) = .ok (Op.entry (Utf8.encode n.entry.dn.text) l).build ∧
      encodes (.int i) (Op.entry (Utf8.encode n.entry.dn.text) l).build = true := by
    intro k hk
    obtain ⟨n, hn⟩ := hexists k hk
    have hs := hent k n hk hn
    obtain ⟨l, h1, h2, h3⟩ := resultEntry_shown hU hs.named hs.kinds hw hs.modest (i := i) ⟨by omega, hi.2⟩
    exact ⟨n, l, hn, h2, by simp only [entryAt, hn, Option.map_some, Option.getD_some]; exact h1, h3⟩
  have hacc : ∀ k, C26.InScope st.heap j sc k →
      sendIfMatch env st.heap (.int i) f.sem (wanted.map .bytes) k = tryMatch env.U st.heap f.sem k := by
    intro k hk
    obtain ⟨n, l, hn, _, h1, h2⟩ := hsend k hk
    unfold sendIfMatch
    rw [h1]
    cases tryMatch env.U st.heap f.sem k with
    | none => rfl
    | some b => cases b <;> simp [h2]
  obtain ⟨nodes, hwalk, hmem, hnod, hpw⟩ := searchNodes_exact hv hlt sc
    (sendIfMatch env st.heap (.int i) f.sem (wanted.map .bytes)) (by
      intro k hk
      rw [hacc k hk]
      obtain ⟨n, hn⟩ := hexists k hk
      exact C26.tryMatch_some hev hk (List.getElem?_eq_some_iff.mp hn).1)
  have hnodes : ∀ k ∈ nodes, ∃ op : Op, (Shows st.heap wanted k op ∧ encodes (.int i) op.build = true) ∧
      entryFor env st.heap (wanted.map .bytes) k = op.build := by
    intro k hk
    obtain ⟨n, l, hn, h1, h2, h3⟩ := hsend k ((hmem k).mp hk).1
    exact ⟨_, ⟨⟨n, l, hn, rfl, h1⟩, h3⟩, by simp only [entryFor, h2]⟩
  have hpairs : ∀ ks : List Nat, (∀ k ∈ ks, k ∈ nodes) → ∃ l : List (Nat × Op), l.map (·.1) = ks ∧
      (∀ x ∈ l, Shows st.heap wanted x.1 x.2 ∧ encodes (.int i) x.2.build = true) ∧
      ks.map (entryFor env st.heap (wanted.map .bytes)) = (l.map (·.2)).map Op.build := by
    intro ks
    induction ks with
    | nil => intro _; exact ⟨[], rfl, by simp, rfl⟩
    | cons k ks ih =>
      intro h
      obtain ⟨l, h1, h2, h3⟩ := ih (fun x hx => h x (List.mem_cons_of_mem _ hx))
      obtain ⟨op, h4, h5⟩ := hnodes k (h k List.mem_cons_self)
      refine ⟨(k, op) :: l, by simp [h1], fun x hx => ?_, by simp only [List.map_cons, h5, h3]⟩
      rcases List.mem_cons.mp hx with rfl | hx
      · exact h4
      · exact h2 x hx
  obtain ⟨l, h1, h2, h3⟩ := hpairs nodes (fun _ h => h)
  subst h1
  have hi0 : PyVal.int i ≠ .int 0 := by intro h; cases h; omega
  have hscope : scopeOf (.int scope) = some sc := by cases hsc <;> rfl
  have hroot : wantsRootDSE (.bytes base) (.int scope) f.build = .ok false := by
    unfold wantsRootDSE
    rw [if_neg]
    rintro ⟨e1, e2⟩
    cases e1; cases e2
    rcases hdse with h | h <;> exact h rfl
  have hread : readDn env.U (.bytes base) = .ok d := by
    simp only [readDn, htext, bind, Except.bind]; exact hd
  have hfin : encodes (.int i) (Op.result .searchDone 0 [] []).build = true :=
    encodes_op i _ ⟨by omega, hi.2⟩ (by decide)
  have hdone : searchDone 0 .none = (Op.result .searchDone 0 [] []).build := rfl
  have hhandle : handleSearch env luck st.heap (.int i) (.bytes base) (.int scope) f.build (wanted.map .bytes) (some cs) =
      .ok ((l.map (·.2)).map Op.build, (Op.result .searchDone 0 [] []).build) := by
    simp only [handleSearch, checkControls, C41.checkEach_ok hcs, hroot, lift, hread, bind, Except.bind, pure, Except.pure,
      searchAt, hj, hscope, toFilter_build, hwalk, h3, hdone, Bool.false_eq_true, if_false]
  refine ⟨⟨st, (l.map Prod.snd ++ [Op.result .searchDone 0 [] []]).map (fun op => (PyVal.int i, op.build))⟩, l, ?_, rfl, rfl,
    fun x hx => (h2 x hx).1, ?_, hnod, hpw, ?_⟩
  · simp only [serve, isRequest, if_true, if_neg hi0, call, hhandle, final, hfin, List.map_append, List.map_map, List.map_cons,
      List.map_nil]
    rfl
  · intro k
    rw [hmem]
    constructor
    · rintro ⟨hk, h⟩; rw [hacc k hk] at h; exact ⟨hk, C26.tryMatch_true.mp h⟩
    · rintro ⟨hk, h⟩; exact ⟨hk, by rw [hacc k hk]; exact C26.tryMatch_true.mpr h⟩
  · intro x hx
    obtain ⟨op, hop, rfl⟩ := List.mem_map.mp hx
    rcases List.mem_append.mp hop with h | h
    · obtain ⟨y, hy, rfl⟩ := List.mem_map.mp h
      exact (h2 y hy).2
    · rw [List.mem_singleton.mp h]; exact hfin

/-- The matching entries are those of which the filter holds. -/
theorem matches_holds (U : Unicode) (hU : Sane U) (h : Heap) (k : Nat) (n : Node) (hn : h[k]? = some n) (he : WellNamed n.entry)
    (f : Spec.Filter) (hf : Testable n.entry f.sem) : C26.Matches U h f.sem k ↔ Holds U n.entry f.sem true := by
  rw [← C17.eval_iff_partial U hU n.entry he f.sem hf true]
  unfold C26.Matches
  rw [hn]
  exact ⟨fun ⟨_, e, h⟩ => by cases e; exact h, fun h => ⟨n, rfl, h⟩⟩

/-- A base that is not there: `noSuchObject`, and no entries. -/
theorem no_base (env : Env) (luck : Luck) (st : State) (i : Int) (hi : 0 < i ∧ i < 2 ^ 31) (t : UInt8) (base : Bytes)
    (scope deref sl tl ty : PyVal) (f : Obj) (wanted : List PyVal) (cs : C41.Controls) (hcs : ¬ C41.HasCritical cs)
    (hdse : base ≠ []) (text : Str) (d : Dn.Dn) (htext : Utf8.decode base = .ok text) (hd : Dn.Dn.parse env.U text = .ok d)
    (hj : lookup env.U st.heap 0 d = .error .noSuchObject) :
    ∃ s : Served, serve env luck st (.message (.int i) (.searchRequest t (.bytes base) scope deref sl tl ty f
        wanted) (some cs)) = some s ∧ s.state = st ∧ s.sent = [(.int i, (Op.result .searchDone 32 [] []).build)] := by
  have hi0 : PyVal.int i ≠ .int 0 := by intro h; cases h; omega
  have hroot : wantsRootDSE (.bytes base) scope f = .ok false := by
    unfold wantsRootDSE
    rw [if_neg]
    rintro ⟨e1, _⟩
    cases e1; exact hdse rfl
  have hread : readDn env.U (.bytes base) = .ok d := by
    simp only [readDn, htext, bind, Except.bind]; exact hd
  have hrep : searchDone ((Fault.py .noSuchObject).reportSearch luck).1 ((Fault.py .noSuchObject).reportSearch luck).2 =
      (Op.result .searchDone 32 [] []).build := rfl
  have hfin : encodes (.int i) (Op.result .searchDone 32 [] []).build = true :=
    encodes_op i _ ⟨by omega, hi.2⟩ (by decide)
  have hhandle : handleSearch env luck st.heap (.int i) (.bytes base) scope f wanted (some cs) =
      .ok ([], (Op.result .searchDone 32 [] []).build) := by
    simp only [handleSearch, checkControls, C41.checkEach_ok hcs, hroot, lift, hread, bind, Except.bind, pure, Except.pure,
      searchAt, hj, hrep, Bool.false_eq_true, if_false]
  exact ⟨⟨st, [(.int i, (Op.result .searchDone 32 [] []).build)]⟩, by
    simp only [serve, isRequest, if_true, if_neg hi0, call, hhandle, final, hfin, List.map_nil, List.nil_append], rfl, rfl⟩

/-- The root DSE is sent for a base search at the empty DN for the presence of `objectClass`: it names the directory root. -/
theorem root_dse (env : Env) (luck : Luck) (st : State) (n : Node) (hn : st.heap[0]? = some n)
    (hfit : Fit (Utf8.encode n.entry.dn.text)) (i : Int) (hi : 0 < i ∧ i < 2 ^ 31) (t : UInt8) (deref sl tl ty : PyVal)
    (wanted : List PyVal) (cs : C41.Controls) (hcs : ¬ C41.HasCritical cs) :
    ∃ s : Served, serve env luck st (.message (.int i) (.searchRequest t (.bytes []) (.int 0) deref sl tl ty
        (Filter.present (ascii "objectClass")).build wanted) (some cs)) = some s ∧ s.state = st ∧
      s.sent = [(.int i, (Op.entry [] [(ascii "supportedLDAPVersion", [ascii "3"]),
          (ascii "namingContexts", [Utf8.encode n.entry.dn.text]),
          (ascii "supportedExtension", [ascii "1.3.6.1.4.1.4203.1.11.1"])]).build),
        (.int i, (Op.result .searchDone 0 [] []).build)] ∧
      ∀ x ∈ s.sent, encodes x.1 x.2 = true := by
  have hi0 : PyVal.int i ≠ .int 0 := by intro h; cases h; omega
  have hroot : wantsRootDSE (.bytes []) (.int 0) (Filter.present (ascii "objectClass")).build = .ok true := by
    decide +kernel
  have hdn : dnOctets st.heap 0 = Utf8.encode n.entry.dn.text := by
    simp only [dnOctets, Tree.dnOf, hn, Option.map_some, Option.getD_some]
  have hdse : rootDSE st.heap = (Op.entry [] [(ascii "supportedLDAPVersion", [ascii "3"]),
          (ascii "namingContexts", [Utf8.encode n.entry.dn.text]),
          (ascii "supportedExtension", [ascii "1.3.6.1.4.1.4203.1.11.1"])]).build := by
    simp only [rootDSE, hdn]; rfl
  have hl : (ascii "supportedLDAPVersion").length = 20 ∧ (ascii "namingContexts").length = 14 ∧
      (ascii "supportedExtension").length = 18 ∧ (ascii "1.3.6.1.4.1.4203.1.11.1").length = 23 ∧ (ascii "3").length = 1 := by
    decide +kernel
  have he : encodes (.int i) (rootDSE st.heap) = true := by
    rw [hdse]
    refine encodes_op i _ ⟨by omega, hi.2⟩ ?_
    unfold Fit at hfit
    simp only [Op.size, sizeSum, attrSize, octSize, elementSize, hl.1, hl.2.1, hl.2.2.1, hl.2.2.2.1, hl.2.2.2.2,
      List.length_nil]
    omega
  have hfin : encodes (.int i) (Op.result .searchDone 0 [] []).build = true :=
    encodes_op i _ ⟨by omega, hi.2⟩ (by decide)
  have hdone : searchDone 0 .none = (Op.result .searchDone 0 [] []).build := rfl
  have hhandle : handleSearch env luck st.heap (.int i) (.bytes []) (.int 0) (Filter.present (ascii "objectClass")).build
      wanted (some cs) = .ok ([rootDSE st.heap], (Op.result .searchDone 0 [] []).build) := by
    simp only [handleSearch, checkControls, C41.checkEach_ok hcs, hroot, lift, bind, Except.bind, pure, Except.pure, he, hdone,
      if_true]
  rw [← hdse]
  refine ⟨⟨st, _⟩, by
    simp only [serve, isRequest, if_true, if_neg hi0, call, hhandle, final, hfin, List.map_cons, List.map_nil]; rfl, rfl, rfl, fun x hx => ?_⟩
  rcases List.mem_cons.mp hx with rfl | hx
  · exact he
  · rw [List.mem_singleton.mp hx]; exact hfin

/-- A compare request is answered with `compareTrue` (6) or `compareFalse` (5) according to whether the entry has the
attribute with that value. -/
theorem compare_answered (env : Env) (hU : Sane env.U) (luck : Luck) (st : State) (i : Int) (hi : 0 < i ∧ i < 2 ^ 31) (t t' : UInt8)
    (dn a v : Bytes) (ha : (PyStr.bytes a).Ascii) (hval : (PyStr.bytes v).Decodable) (cs : C41.Controls)
    (hcs : ¬ C41.HasCritical cs) (text : Str) (d : Dn.Dn) (htext : Utf8.decode dn = .ok text)
    (hd : Dn.Dn.parse env.U text = .ok d) (j : Nat) (n : Node) (hj : lookup env.U st.heap 0 d = .ok j)
    (hn : st.heap[j]? = some n) (hnamed : WellNamed n.entry) :
    ∃ (s : Served) (b : Bool), serve env luck st (.message (.int i) (.compare t (.bytes dn)
        (.ava .ava t' (octet a) (octet v))) (some cs)) = some s ∧ s.state = st ∧
      s.sent = [(.int i, (Op.result .compare (if b then 6 else 5) [] []).build)] ∧
      (b = true ↔ ∃ vs w, HasAttr n.entry (.bytes a) vs ∧ w ∈ vs ∧ SameValue env.U w (.bytes v)) := by
  have hi0 : PyVal.int i ≠ .int 0 := by intro h; cases h; omega
  obtain ⟨b, hb, hh⟩ := C17.equality_spec hU hnamed (.bytes a) (.bytes v) ha hval
  have hread : readDn env.U (.bytes dn) = .ok d := by
    simp only [readDn, htext, bind, Except.bind]; exact hd
  have hass : assertion .equality (octet a) (octet v) = .equality (.bytes a) (.bytes v) := by
    simp [assertion, octets?, octet, Obj.value, octetsOf]
  have htry : tryMatch env.U st.heap (.equality (.bytes a) (.bytes v)) j = some b := by
    simp [tryMatch, hn, hb]
  have hcode : ∀ c : Int, c = 5 ∨ c = 6 → encodes (.int i) (Op.result .compare c [] []).build = true := by
    intro c hc
    exact encodes_op i _ ⟨by omega, hi.2⟩ (size_result _ (by omega) [] (by simp) (by simp))
  have hhandle : handleCompare env luck st.heap (.bytes dn) (.ava .ava t' (octet a) (octet v)) (some cs) =
      .ok (Op.result .compare (if b then 6 else 5) [] []).build := by
    simp only [handleCompare, checkControls, C41.checkEach_ok hcs, lift, hread, bind, Except.bind, pure, Except.pure, compareAt,
      hj, hass, htry]
    cases b <;> rfl
  refine ⟨⟨st, [(.int i, (Op.result .compare (if b then 6 else 5) [] []).build)]⟩, b, ?_, rfl, rfl, ?_⟩
  · have := hcode (if b then 6 else 5) (by cases b <;> simp)
    simp only [serve, isRequest, if_true, if_neg hi0, call, hhandle, final, this, List.map_nil, List.nil_append]
  · constructor
    · rintro rfl
      cases hh with
      | equality_yes _ _ vs w h1 h2 h3 => exact ⟨vs, w, h1, h2, h3⟩
    · rintro ⟨vs, w, h1, h2, h3⟩
      cases b with
      | true => rfl
      | false => cases hh with
        | equality_no _ _ h => exact absurd h3 (h vs w h1 h2)

/-! Witnesses. -/

def root : Entry := ⟨[[⟨['d','c'], ['a']⟩]], [(.bytes (ascii "dc"), [.bytes (ascii "a")])]⟩

def child : Entry := ⟨[[⟨['c','n'], ['b']⟩], [⟨['d','c'], ['a']⟩]],
  [(.bytes (ascii "cn"), [.bytes (ascii "b"), .bytes (ascii "x")]), (.bytes (ascii "sn"), [.bytes (ascii "y")])]⟩

/-- The root, and an entry added below it. -/
def heap : Heap := [⟨root, none, [(['c','n','=','b'], 1)]⟩, ⟨child, some 0, []⟩]

def addition : Obj := (Op.add (ascii "cn=b,dc=a")
  [(ascii "cn", [ascii "b", ascii "x"]), (ascii "sn", [ascii "y"])]).build

theorem built : Built C40.env heap := by
  have h : ((serve C40.env C40.luck ⟨single root, none⟩ (.message (.int 1) addition none)).map fun s => decide (s.state.heap = heap)) =
      some true := by decide +kernel
  cases hs : serve C40.env C40.luck ⟨single root, none⟩ (.message (.int 1) addition none) with
  | none => rw [hs] at h; cases h
  | some s =>
    rw [hs] at h
    have : s.state.heap = heap := by simpa using h
    rw [← this]
    exact .step (st := ⟨single root, none⟩) (.start root) (request := addition) (fun h => by cases h) hs

theorem sendable (k : Nat) (n : Node) (hn : heap[k]? = some n) : Sendable n.entry [ascii "CN"] := by
  have hmem : n = ⟨root, none, [(['c','n','=','b'], 1)]⟩ ∨ n = ⟨child, some 0, []⟩ := by
    have := List.mem_of_getElem? hn
    simpa [heap] using this
  have hb : ∀ e : Entry, e = root ∨ e = child → e.attrs.all (fun p => decide (p.1.Ascii) && p.2.all (fun v => !v.isText) &&
      decide (p.1.toBytes.length < 2 ^ 32) && decide (p.2.length < 2 ^ 32) && p.2.all (fun v => decide (v.toBytes.length < 2 ^ 32))) = true := by
    rintro e (rfl | rfl) <;> decide +kernel
  have he : n.entry = root ∨ n.entry = child := by rcases hmem with rfl | rfl <;> simp
  have hall := hb _ he
  rw [List.all_eq_true] at hall
  refine ⟨⟨fun k vs hm => ?_, ?_⟩, fun k vs hm => ?_, ⟨?_, ?_, fun k vs hm => ?_, by decide⟩⟩
  · have := hall _ hm
    simp only [Bool.and_eq_true, decide_eq_true_iff] at this
    exact this.1.1.1.1
  · rcases he with h | h <;> rw [h] <;> unfold SameName <;> decide +kernel
  · have := hall _ hm
    simp only [Bool.and_eq_true, List.all_eq_true, Bool.not_eq_true'] at this
    exact .inr this.1.1.1.2
  · rcases he with h | h <;> rw [h] <;> unfold Fit <;> decide +kernel
  · rcases he with h | h <;> rw [h] <;> decide +kernel
  · have := hall _ hm
    simp only [Bool.and_eq_true, decide_eq_true_iff, List.all_eq_true] at this
    exact ⟨this.1.1.2, this.1.2, this.2⟩

/-- The hypotheses of `search_answered` hold for a subtree search for `(cn=B)` and the attribute `CN`; the answer is the
child with its two values of `cn`, and nothing of `sn`. -/
example : C26.Evaluable asciiTables heap (Filter.equal (ascii "cn") (ascii "B")).sem 0 .sub ∧
    (∀ k n, C26.InScope heap 0 .sub k → heap[k]? = some n → Sendable n.entry [ascii "CN"]) ∧
    lookup asciiTables heap 0 root.dn = .ok 0 ∧ ¬ C41.HasCritical [] ∧ Sane asciiTables ∧
    C26.Matches asciiTables heap (Filter.equal (ascii "cn") (ascii "B")).sem 1 ∧
    ¬ C26.Matches asciiTables heap (Filter.equal (ascii "cn") (ascii "B")).sem 0 := by
  have hev : ∀ (k : Nat) (n : Node), heap[k]? = some n → n = ⟨root, none, [(['c','n','=','b'], 1)]⟩ ∨ n = ⟨child, some 0, []⟩ := by
    intro k n hn
    have := List.mem_of_getElem? hn
    simpa [heap] using this
  refine ⟨?_, fun k n _ hn => sendable k n hn, by decide +kernel, (fun ⟨_, _, _, h, _⟩ => by cases h), asciiTables_sane, ?_, ?_⟩
  · intro k _ n hn
    rcases hev k n hn with rfl | rfl
    · exact ⟨false, by decide +kernel⟩
    · exact ⟨true, by decide +kernel⟩
  · exact ⟨_, rfl, by decide +kernel⟩
  · rintro ⟨n, hn, he⟩
    cases hn
    revert he
    decide +kernel

/-- What is sent: the id, then for an entry its name and attributes, or the result code. -/
def answers (s : Option Served) : List (List PyVal) :=
  match s with
  | none => []
  | some s => s.sent.map fun m => m.1 :: match m.2 with
    | .searchEntry _ n l => n :: l.flatMap fun kv => kv.1 :: kv.2
    | .result _ _ c _ _ _ => [c]
    | _ => []

example : answers (serve C40.env C40.luck ⟨heap, none⟩ (.message (.int 5) (.searchRequest 0x43 (.bytes (ascii "dc=a")) (.int 2)
      (.int 0) (.int 0) (.int 0) (.int 0) (Filter.equal (ascii "cn") (ascii "B")).build [.bytes (ascii "CN")]) none)) =
    [[.int 5, .bytes (ascii "cn=b,dc=a"), .bytes (ascii "CN"), .bytes (ascii "b"), .bytes (ascii "x")],
     [.int 5, .int 0]] := by decide +kernel

/-- A compare request that is true and one that is false. -/
example : answers (serve C40.env C40.luck ⟨heap, none⟩ (.message (.int 5) (Op.compare (ascii "cn=b,dc=a") (ascii "CN") (ascii "X")).build
      none)) = [[.int 5, .int 6]] ∧
    answers (serve C40.env C40.luck ⟨heap, none⟩ (.message (.int 5) (Op.compare (ascii "cn=b,dc=a") (ascii "CN") (ascii "z")).build
      none)) = [[.int 5, .int 5]] := by decide +kernel

end Verif.C67
