import Verif.Model.FreeNumber
import Verif.Lemmas.Decimal
import Verif.Props.C53
import Verif.Props.C93
/-
C95  The number that `getFreeNumber` gives is not used in the directory.

`free_number`: a program asks a server of this library for a free number, below an entry.  Each guess is a search over the network, in
any segments, by any process that can search; the answer to each is whether some entry of the subtree has the number.  After
finitely many guesses a number is given; no entry of the subtree has it, and it is the smallest allowed number, or some entry has
the number before it.  `guess` tells what the answer to one guess is.

`any_server`: with a server that heeds the size limit of one that the guess asks for, the answer to the guess is the same: the
error that such a server reports when two entries have the number is not noticed (C52 `limit_swallowed`).  `fails`: the guess fails if the
server reports another error.
-/
namespace Verif.C95
open Verif.Ldap Verif.Spec Verif.FreeNumber
open Verif.Server (Env Luck State ascii)
open Verif.NumberAlloc (Guesser)
open Verif.C93 (CanSearch)

/-- Some entry of the subtree has the number as a value of the attribute. -/
def Used (h : Tree.Heap) (j : Nat) (a : Str) (n : Int) : Prop :=
  ∃ k m vs v, Below h j k ∧ h[k]? = some m ∧ HasAttr m.entry (.text a) vs ∧ v ∈ vs ∧ v.toBytes = Utf8.encode (Decimal.ofInt n)

/-- The directory below the entry `j` can be asked about the numbers `a`. -/
structure Askable (h : Tree.Heap) (j : Nat) (a : Str) : Prop where
  name : (PyStr.text a).Ascii
  entries : ∀ k m, Below h j k → h[k]? = some m → C67.Sendable m.entry [] ∧ Textual m.entry.dn ∧
    ∀ vs, HasAttr m.entry (.text a) vs → ∀ v ∈ vs, v.isText = false

/-- Any process that can send the guess is told, in the end, how many entries there are; whether there are any is `b`. -/
def Answers (env : Env) (luck : Luck) (st : State) (d : Dn.Dn) (a : Str) (num : Int) (b : Bool) : Prop :=
  ∀ (w : Client.World) (app : Client.App) (fuel c : Nat) (o : ClientSearch.Options), CanSearch env.U app c o w →
    (Msg.mk w.nextId (.search (Utf8.encode d.text) 2 0 1 0 false (.equal (Utf8.encode a) (Utf8.encode (Decimal.ofInt num))) []) none).size < lengthLimit →
    Searched env luck app fuel c o w (request d a num) st fun r => ∃ k, count r = some (.ok k) ∧ decide (k ≠ 0) = b

/-- The search: `answers` tells what a guess may be told. -/
inductive Search (answers : Int → Bool → Prop) : Guesser → Int → Int → Prop
  | done {g guess n} (k : Nat) : answers guess (decide (k ≠ 0)) → next g k guess = .done n → Search answers g guess n
  | more {g guess g' guess' n} (k : Nat) : answers guess (decide (k ≠ 0)) → next g k guess = .ask g' guess' → Search answers g' guess' n →
      Search answers g guess n

theorem number_ascii (n : Int) : Utf8.AsciiText (Decimal.ofInt n) := by
  intro c hc
  rcases Decimal.ofInt_mem hc with h | rfl
  · simp [Char.isDigit] at h
    have := UInt32.le_iff_toNat_le.mp h.2
    have e : c.toNat = c.val.toNat := rfl
    simp at this
    omega
  · decide

theorem number_lower (n : Int) : PyStr.lowerBytes (Utf8.encode (Decimal.ofInt n)) = Utf8.encode (Decimal.ofInt n) := by
  rw [Utf8.encode_ascii (number_ascii n)]
  unfold PyStr.lowerBytes
  rw [List.map_map]
  apply List.map_congr_left
  intro c hc
  have hlt : c.toNat < 58 := by
    rcases Decimal.ofInt_mem hc with h | rfl
    · simp [Char.isDigit] at h
      have := UInt32.le_iff_toNat_le.mp h.2
      have e : c.toNat = c.val.toNat := rfl
      simp at this
      omega
    · decide
  show PyStr.lowerByte (UInt8.ofNat c.toNat) = _
  unfold PyStr.lowerByte
  rw [if_neg]
  rintro ⟨h, _⟩
  have := UInt8.le_iff_toNat_le.mp h
  simp at this
  omega

theorem lower_number {b : Bytes} {n : Int} (h : PyStr.lowerBytes b = Utf8.encode (Decimal.ofInt n)) : b = Utf8.encode (Decimal.ofInt n) := by
  have hmem : ∀ x ∈ Utf8.encode (Decimal.ofInt n), x.toNat < 58 := by
    rw [Utf8.encode_ascii (number_ascii n)]
    intro x hx
    obtain ⟨c, hc, rfl⟩ := List.mem_map.mp hx
    rcases Decimal.ofInt_mem hc with h | rfl
    · simp [Char.isDigit] at h
      have := UInt32.le_iff_toNat_le.mp h.2
      have e : c.toNat = c.val.toNat := rfl
      simp at this ⊢
      omega
    · decide
  rw [← h] at hmem
  have : PyStr.lowerBytes b = b := by
    clear h
    induction b with
    | nil => rfl
    | cons x b ih =>
      have h1 := hmem (PyStr.lowerByte x) List.mem_cons_self
      have h2 := ih fun y hy => hmem y (List.mem_cons_of_mem _ hy)
      show PyStr.lowerByte x :: PyStr.lowerBytes b = _
      rw [h2]
      congr 1
      unfold PyStr.lowerByte at h1 ⊢
      split
      · rename_i hx
        rw [if_pos hx] at h1
        have a1 := UInt8.le_iff_toNat_le.mp hx.1
        have a2 := UInt8.le_iff_toNat_le.mp hx.2
        simp at a1 a2
        rw [UInt8.toNat_add] at h1
        simp at h1
        omega
      · rfl
  rw [← this]; exact h

theorem request_eq (d : Dn.Dn) (a : Str) (num : Int) :
    request d a num = (Op.search (Utf8.encode d.text) 2 0 1 0 false (.equal (Utf8.encode a) (Utf8.encode (Decimal.ofInt num))) []).build := rfl

/-- Whether an entry matches. -/
theorem matches_iff {U : Unicode} (hU : Sane U) {e : Entry} (he : WellNamed e) {a : Str} (ha : (PyStr.text a).Ascii)
    (hv : ∀ vs, HasAttr e (.text a) vs → ∀ v ∈ vs, v.isText = false) (num : Int) :
    ∃ b, Match.eval U e (Filter.equal (Utf8.encode a) (Utf8.encode (Decimal.ofInt num))).sem = .ok b ∧
      (b = true ↔ ∃ vs v, HasAttr e (.text a) vs ∧ v ∈ vs ∧ v.toBytes = Utf8.encode (Decimal.ofInt num)) := by
  have hsame : ∀ vs, HasAttr e (.bytes (Utf8.encode a)) vs ↔ HasAttr e (.text a) vs := fun vs => Iff.rfl
  have hval : ∀ v : PyStr, v.isText = false →
      (SameValue U v (.bytes (Utf8.encode (Decimal.ofInt num))) ↔ v.toBytes = Utf8.encode (Decimal.ofInt num)) := by
    intro v hv
    match v, hv with
    | .bytes b, _ =>
      show PyStr.lowerBytes b = PyStr.lowerBytes _ ↔ b = _
      rw [number_lower]
      exact ⟨lower_number, fun h => by rw [h, number_lower]⟩
  obtain ⟨b, h1, h2⟩ := C17.eval_correct_partial U hU e he (.equality (.bytes (Utf8.encode a)) (.bytes (Utf8.encode (Decimal.ofInt num))))
    (.equality _ _ ha (PyStr.ascii_decodable (Utf8.encode_asciiBytes (number_ascii num))))
  refine ⟨b, h1, ?_⟩
  generalize hx : Utf8.encode (Decimal.ofInt num) = x at h2 hval ⊢
  cases h2 with
  | equality_yes _ _ vs v h3 h4 h5 =>
    exact ⟨fun _ => ⟨vs, v, h3, h4, (hval v (hv vs h3 v h4)).mp h5⟩, fun _ => rfl⟩
  | equality_no _ _ h3 =>
    refine ⟨nofun, ?_⟩
    rintro ⟨vs, v, h4, h5, h6⟩
    exact absurd ((hval v (hv vs h4 v h5)).mpr h6) (h3 vs v h4 h5)

/-- What the answer to a guess is. -/
theorem guess (env : Env) (hU : Sane env.U) (luck : Luck) (st : State) (hb : C67.Built env st.heap) (d : Dn.Dn) (hd : Textual d)
    (j : Nat) (hj : Tree.lookup env.U st.heap 0 d = .ok j) (hlt : j < st.heap.length) (a : Str) (h : Askable st.heap j a) (num : Int) (b : Bool)
    (hused : b = true ↔ Used st.heap j a num) : Answers env luck st d a num b := by
  intro w app fuel c o hw hsize
  rw [request_eq]
  have hm : ∀ k m, Below st.heap j k → st.heap[k]? = some m → _ := fun k m hk hkm =>
    matches_iff hU (h.entries k m hk hkm).1.named h.name (h.entries k m hk hkm).2.2 num
  obtain ⟨out, hlog, hex⟩ := C75.search env hU luck st hb w app fuel c o hw.quiet hw.searches hw.new hw.connected hw.id hw.free d hd 2 0 1 0 false
    (.equal (Utf8.encode a) (Utf8.encode (Decimal.ofInt num))) [] (by simp) (fun hx => absurd rfl hx.1) .sub .sub (.inr (by decide)) j hj hlt
    (fun k hk m hkm => by obtain ⟨b, hb, _⟩ := hm k m hk hkm; exact ⟨b, hb⟩)
    (fun k m hk hkm => ⟨(h.entries k m hk hkm).1, (h.entries k m hk hkm).2.1⟩) hsize
  refine ⟨_, out, rfl, hlog, fun segs hsegs => ?_⟩
  obtain ⟨sent, back, g1, g2, g3, g4⟩ := hex segs hsegs
  refine ⟨sent, back, g1, g2, g3, fun segs' hsegs' => ?_⟩
  obtain ⟨k1, k2, k3, k4, ks, k5, k6, _⟩ := g4 segs' hsegs'
  refine ⟨k1, k2, ?_⟩
  generalize ClientSearch.run env.U o _ = r at k4 k5 ⊢
  refine ⟨r.entries.length, by simp only [count, k4], ?_⟩
  rw [Bool.eq_iff_iff, hused, decide_eq_true_iff]
  constructor
  · intro hne
    generalize r.entries = es at hne k5
    cases k5 with
    | nil => exact absurd rfl hne
    | @cons k e ks es _ _ =>
      obtain ⟨hk, m, hkm, hev⟩ := (k6 k).mp List.mem_cons_self
      obtain ⟨b, hb, hb'⟩ := hm k m hk hkm
      rw [hev] at hb
      obtain ⟨vs, v, h1, h2, h3⟩ := hb'.mp (Except.ok.inj hb).symm
      exact ⟨k, m, vs, v, hk, hkm, h1, h2, h3⟩
  · rintro ⟨k, m, vs, v, hk, hkm, h1, h2, h3⟩
    obtain ⟨b, hb, hb'⟩ := hm k m hk hkm
    rw [hb'.mpr ⟨vs, v, h1, h2, h3⟩] at hb
    have hmem := (k6 k).mpr ⟨hk, m, hkm, hb⟩
    match r.entries, ks, k5, hmem with
    | [], [], _, h => cases h
    | e :: es, _ :: _, _, _ => simp

/-- Only finitely many numbers are used. -/
theorem bounded (h : Tree.Heap) (j : Nat) (a : Str) : ∃ bound : Int, ∀ n, bound ≤ n → ¬ Used h j a n := by
  have hfin : ∀ l : List Bytes, ∃ bound : Int, ∀ n, bound ≤ n → Utf8.encode (Decimal.ofInt n) ∉ l := by
    intro l
    induction l with
    | nil => exact ⟨0, by simp⟩
    | cons x l ih =>
      obtain ⟨b, hb⟩ := ih
      rcases Classical.em (∃ m, Utf8.encode (Decimal.ofInt m) = x) with ⟨m, hm⟩ | hx
      · refine ⟨max b (m + 1), fun n hn hmem => ?_⟩
        rcases List.mem_cons.mp hmem with h | h
        · have := Decimal.ofInt_injective (Utf8.encode_injective (h.trans hm.symm))
          omega
        · exact hb n (by omega) h
      · refine ⟨b, fun n hn hmem => ?_⟩
        rcases List.mem_cons.mp hmem with h | h
        · exact hx ⟨n, h⟩
        · exact hb n hn h
  obtain ⟨bound, hb⟩ := hfin (h.flatMap fun m => m.entry.attrs.flatMap fun p => p.2.map PyStr.toBytes)
  refine ⟨bound, fun n hn ⟨k, m, vs, v, _, hm, ⟨name, hp, _⟩, hv, he⟩ => hb n hn ?_⟩
  exact List.mem_flatMap.mpr ⟨m, List.mem_of_getElem? hm, List.mem_flatMap.mpr ⟨(name, vs), hp, List.mem_map.mpr ⟨v, hv, he⟩⟩⟩

theorem loop_search {answers : Int → Bool → Prop} {taken : Int → Bool} (h : ∀ n, answers n (taken n)) (fuel : Nat) (g : Guesser) (guess n : Int)
    (hl : NumberAlloc.loop taken fuel g guess = some n) : Search answers g guess n := by
  induction fuel generalizing g guess with
  | zero => cases hl
  | succ fuel ih =>
    have hk : ∃ k : Nat, decide (k ≠ 0) = taken guess := by
      cases taken guess
      · exact ⟨0, rfl⟩
      · exact ⟨1, rfl⟩
    obtain ⟨k, hk⟩ := hk
    have ha := h guess
    simp only [NumberAlloc.loop] at hl
    rw [← hk] at hl ha
    cases hn : NumberAlloc.choose (NumberAlloc.learn g (decide (k ≠ 0)) guess) with
    | done m => rw [hn] at hl; cases hl; exact .done k ha hn
    | ask g' guess' => rw [hn] at hl; exact .more k ha hn (ih g' guess' hl)

/-- **C95** -/
theorem free_number (env : Env) (hU : Sane env.U) (luck : Luck) (st : State) (hb : C67.Built env st.heap) (d : Dn.Dn) (hd : Textual d)
    (j : Nat) (hj : Tree.lookup env.U st.heap 0 d = .ok j) (hlt : j < st.heap.length) (a : Str) (h : Askable st.heap j a) (min : Int) :
    ∃ n, Search (Answers env luck st d a) ⟨min, none⟩ min n ∧ min ≤ n ∧ ¬ Used st.heap j a n ∧ (n = min ∨ Used st.heap j a (n - 1)) := by
  classical
  obtain ⟨bound, hbound⟩ := bounded st.heap j a
  obtain ⟨fuel, n, h1, h2, h3, h4⟩ := C53.search_free (fun n => decide (Used st.heap j a n)) min bound (fun n hn => decide_eq_false (hbound n hn))
  refine ⟨n, loop_search (fun num => guess env hU luck st hb d hd j hj hlt a h num _ decide_eq_true_iff) fuel _ _ _ h1, h3, of_decide_eq_false h2,
    h4.imp id of_decide_eq_true⟩

/-! ### With any server -/

theorem each_length {α β : Type} {R : α → β → Prop} {l : List α} {m : List β} (h : Each R l m) : m.length = l.length := by
  induction h with
  | nil => rfl
  | cons _ _ ih => simp [ih]

/-- The guess counts the entries that come, whether or not the server says that there are more than were asked for. -/
theorem any_server {U : Unicode} (hU : Sane U) {o : ClientSearch.Options} (hq : C52.Quiet o) (ms : List Obj) (hm : ∀ m ∈ ms, Sound U m) (last : Obj)
    (code : Int) (hcode : code = 0 ∨ code = 4) (message : Bytes) (hl : readOp last = some (.result .searchDone code [] message)) :
    count (ClientSearch.run U o ((ms ++ [last]).map .response)) = some (.ok (C93.entriesOf ms).length) := by
  have h : (ClientSearch.run U o ((ms ++ [last]).map .response)).outcome = some .finished ∧
      Brings U o.complete ms (ClientSearch.run U o ((ms ++ [last]).map .response)).entries := by
    rcases hcode with rfl | rfl
    · exact C52.succeeds hU hq ms hm last message hl
    · cases hn : o.nonFatal with
      | true => exact C52.limit_tolerated hU hq hn ms hm last message hl
      | false => exact C52.limit_swallowed hU hq hn ms hm last message hl
  obtain ⟨h1, h2⟩ := h
  have hE := C93.brings_entries h2
  simp only [count, h1]
  rw [each_length hE]

theorem fails {U : Unicode} (hU : Sane U) {o : ClientSearch.Options} (hq : C52.Quiet o) (ms : List Obj) (hm : ∀ m ∈ ms, Sound U m) (last : Obj)
    (code : Int) (h0 : code ≠ 0) (h4 : code ≠ 4) (matched message : Bytes) (hl : readOp last = some (.result .searchDone code matched message)) :
    count (ClientSearch.run U o ((ms ++ [last]).map .response)) = some (.error (.failed (.int code) (.bytes message))) := by
  simp only [count, C52.fails hU hq ms hm last code h0 h4 matched message hl]

/-! ### Examples -/

def root : Entry := ⟨[[⟨['d','c'], ['a']⟩]], [(.bytes (ascii "objectClass"), [.bytes (ascii "domain")]), (.bytes (ascii "dc"), [.bytes (ascii "a")])]⟩

def user : Entry := ⟨[[⟨['c','n'], ['u']⟩], [⟨['d','c'], ['a']⟩]],
  [(.bytes (ascii "cn"), [.bytes (ascii "u")]), (.bytes (ascii "UIDnumber"), [.bytes (ascii "1000")])]⟩

/-- The root, and a user added below it. -/
def heap : Tree.Heap := [⟨root, none, [(['c','n','=','u'], 1)]⟩, ⟨user, some 0, []⟩]

def addition : Obj := (Op.add (ascii "cn=u,dc=a") [(ascii "cn", [ascii "u"]), (ascii "UIDnumber", [ascii "1000"])]).build

theorem built : C67.Built C40.env heap := by
  have h : ((Server.serve C40.env C40.luck ⟨Tree.single root, none⟩ (.message (.int 1) addition none)).map fun s => decide (s.state.heap = heap)) =
      some true := by decide +kernel
  cases hs : Server.serve C40.env C40.luck ⟨Tree.single root, none⟩ (.message (.int 1) addition none) with
  | none => rw [hs] at h; cases h
  | some s =>
    rw [hs] at h
    have : s.state.heap = heap := by simpa using h
    rw [← this]
    exact .step (st := ⟨Tree.single root, none⟩) (.start root) (request := addition) (fun h => by cases h) hs

theorem octets {e : Entry} (he : e = root ∨ e = user) : ∀ p ∈ e.attrs, p.1.Ascii ∧ (∀ v ∈ p.2, v.isText = false) ∧ Fit p.1.toBytes ∧ p.2.length < 2 ^ 32 ∧
    ∀ v ∈ p.2, Fit v.toBytes := by
  have hall : e.attrs.all (fun p => decide (p.1.Ascii) && p.2.all (fun v => !v.isText) &&
      decide (p.1.toBytes.length < 2 ^ 32) && decide (p.2.length < 2 ^ 32) && p.2.all (fun v => decide (v.toBytes.length < 2 ^ 32))) = true := by
    rcases he with rfl | rfl <;> decide +kernel
  rw [List.all_eq_true] at hall
  intro p hp
  have := hall p hp
  simp only [Bool.and_eq_true, decide_eq_true_iff, List.all_eq_true, Bool.not_eq_true'] at this
  exact ⟨this.1.1.1.1, this.1.1.1.2, this.1.1.2, this.1.2, this.2⟩

theorem askable_any {a : Str} (ha : (PyStr.text a).Ascii) : Askable heap 0 a := by
  refine ⟨ha, fun k m _ hm => ?_⟩
  have hmem := List.mem_of_getElem? hm
  have he : m.entry = root ∨ m.entry = user := by
    have : m = ⟨root, none, [(['c','n','=','u'], 1)]⟩ ∨ m = ⟨user, some 0, []⟩ := by simpa [heap] using hmem
    exact this.imp (fun h => by rw [h]) (fun h => by rw [h])
  have ho := octets he
  refine ⟨⟨⟨fun k vs h => (ho _ h).1, ?_⟩, fun k vs h => .inr (ho _ h).2.1, ⟨?_, ?_, fun k vs h => (ho _ h).2.2, by decide⟩⟩, ?_,
    fun vs ⟨k, h, _⟩ => (ho _ h).2.1⟩
  · rcases he with h | h <;> rw [h] <;> unfold SameName <;> decide +kernel
  · rcases he with h | h <;> rw [h] <;> unfold Fit <;> decide +kernel
  · rcases he with h | h <;> rw [h] <;> decide +kernel
  · rcases he with h | h <;> rw [h] <;> exact ⟨by decide, by decide⟩

theorem askable : Askable heap 0 "uidNumber".toList := askable_any (by unfold PyStr.Ascii; decide +kernel)

theorem used : Used heap 0 "uidNumber".toList 1000 :=
  ⟨1, _, [.bytes (ascii "1000")], .bytes (ascii "1000"), ⟨[1], .down (k := ['c','n','=','u']) ⟨_, rfl, List.mem_cons_self⟩ (.here 1)⟩, rfl,
    ⟨.bytes (ascii "UIDnumber"), List.mem_cons_of_mem _ List.mem_cons_self, by unfold SameName; decide +kernel⟩, List.mem_cons_self, by
      show ascii "1000" = _
      decide +kernel⟩

/-- The number 1000 is used, so that another number is given. -/
example : ∃ n, Search (Answers C40.env C40.luck ⟨heap, none⟩ root.dn "uidNumber".toList) ⟨1000, none⟩ 1000 n ∧ 1000 < n ∧
    ¬ Used heap 0 "uidNumber".toList n := by
  obtain ⟨n, h1, h2, h3, _⟩ := free_number C40.env asciiTables_sane C40.luck ⟨heap, none⟩ built root.dn ⟨by decide, by decide⟩ 0 (by decide +kernel)
    (by decide) _ askable 1000
  refine ⟨n, h1, Int.lt_iff_le_and_ne.mpr ⟨h2, ?_⟩, h3⟩
  rintro rfl
  exact h3 used

/-- A process that asks about the number 1000. -/
example : Searched C40.env C40.luck (C75.program asciiTables C75.options 0) 0 0 C75.options C75.world (request root.dn "uidNumber".toList 1000)
    ⟨heap, none⟩ fun r => ∃ k, count r = some (.ok k) ∧ k ≠ 0 := by
  refine C93.Searched.mono (guess C40.env asciiTables_sane C40.luck ⟨heap, none⟩ built root.dn ⟨by decide, by decide⟩ 0 (by decide +kernel)
    (by decide) _ askable 1000 true ⟨fun _ => used, fun _ => rfl⟩ C75.world _ 0 0 C75.options C93.can
    (Nat.lt_trans (by decide +kernel) Server.two64_lt_limit)) ?_
  rintro r ⟨k, h1, h2⟩
  exact ⟨k, h1, of_decide_eq_true h2⟩

/-- A server that stops after one entry. -/
example : count (ClientSearch.run asciiTables C75.options ((C93.answer ++ [(Op.result .searchDone 4 [] []).build]).map .response)) = some (.ok 1) :=
  any_server asciiTables_sane (fun _ => rfl) C93.answer C93.answer_sound _ 4 (.inr rfl) [] rfl

example : count (ClientSearch.run asciiTables C75.options ((C93.answer ++ [(Op.result .searchDone 51 [] []).build]).map .response)) =
    some (.error (.failed (.int 51) (.bytes []))) :=
  fails asciiTables_sane (fun _ => rfl) C93.answer C93.answer_sound _ 51 (by decide) (by decide) [] [] rfl

end Verif.C95
