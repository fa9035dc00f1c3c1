import Verif.Lemmas.ProxyHistory
/-
The proxy between a client and a server: what it has written and remembers.
-/
namespace Verif.ProxySession
open Verif.Ldap Verif.Spec Verif.Server Verif.ProxyBase

/-- Something for each of the first `n` messages. -/
def upto {α : Type} (ms : List Msg) (f : Nat → Msg → α) : Nat → List α
  | 0 => []
  | n + 1 => upto ms f n ++ (ms[n]?.map (f n)).toList

section
variable {α β : Type} {ms : List Msg} {f : Nat → Msg → α}

theorem upto_succ {n : Nat} {m : Msg} (h : ms[n]? = some m) : upto ms f (n + 1) = upto ms f n ++ [f n m] := by
  simp [upto, h]

theorem upto_length {n : Nat} (h : n ≤ ms.length) : (upto ms f n).length = n := by
  induction n with
  | zero => rfl
  | succ n ih =>
    rw [upto_succ (List.getElem?_eq_getElem (show n < ms.length by omega)), List.length_append, ih (by omega)]
    rfl

theorem upto_get {n k : Nat} (h : n ≤ ms.length) (hk : k < n) {m : Msg} (hm : ms[k]? = some m) :
    (upto ms f n)[k]? = some (f k m) := by
  induction n with
  | zero => omega
  | succ n ih =>
    rw [upto_succ (List.getElem?_eq_getElem (show n < ms.length by omega))]
    by_cases hkn : k < n
    · rw [List.getElem?_append_left (by rw [upto_length (by omega)]; exact hkn)]
      exact ih (by omega) hkn
    · have : k = n := by omega
      subst this
      rw [List.getElem?_append_right (by rw [upto_length (by omega)]; omega), upto_length (by omega)]
      rw [List.getElem?_eq_getElem (show k < ms.length by omega)] at hm
      simp [Option.some.inj hm]

theorem upto_map (g : α → β) (n : Nat) : (upto ms f n).map g = upto ms (fun k m => g (f k m)) n := by
  induction n with
  | zero => rfl
  | succ n ih =>
    simp only [upto, List.map_append, ih]
    cases ms[n]? <;> simp

theorem upto_mem {n : Nat} {x : α} (h : x ∈ upto ms f n) : ∃ k m, k < n ∧ ms[k]? = some m ∧ x = f k m := by
  induction n with
  | zero => cases h
  | succ n ih =>
    rw [upto] at h
    rcases List.mem_append.mp h with h | h
    · obtain ⟨k, m, h1, h2, h3⟩ := ih h
      exact ⟨k, m, by omega, h2, h3⟩
    · cases hm : ms[n]? with
      | none => rw [hm] at h; cases h
      | some m =>
        rw [hm] at h
        simp only [Option.map_some, Option.toList_some, List.mem_singleton] at h
        exact ⟨n, m, by omega, hm, h⟩

theorem upto_prefix {n n' : Nat} (h : n ≤ n') : ∃ M, upto ms f n' = upto ms f n ++ M := by
  induction n' with
  | zero => exact ⟨[], by have : n = 0 := by omega
                          subst this; simp⟩
  | succ k ih =>
    by_cases hk : n = k + 1
    · exact ⟨[], by rw [hk]; simp⟩
    · obtain ⟨M, hM⟩ := ih (by omega)
      exact ⟨_, by rw [upto, hM, List.append_assoc]⟩
end

/-! ### The answers -/

section
variable {ans : Nat → List Op}

theorem answers_prefix {n n' : Nat} (h : n ≤ n') : ∃ M, answers ans n' = answers ans n ++ M := by
  induction n' with
  | zero => exact ⟨[], by have : n = 0 := by omega
                          subst this; simp⟩
  | succ k ih =>
    by_cases hk : n = k + 1
    · exact ⟨[], by rw [hk]; simp⟩
    · obtain ⟨M, hM⟩ := ih (by omega)
      exact ⟨_, by rw [answers, hM, List.append_assoc]⟩

theorem answers_mem {n : Nat} {x : Nat × Op} (h : x ∈ answers ans n) : x.1 < n ∧ x.2 ∈ ans x.1 := by
  induction n with
  | zero => cases h
  | succ n ih =>
    rcases List.mem_append.mp h with h | h
    · have := ih h; exact ⟨by omega, this.2⟩
    · obtain ⟨r, hr, rfl⟩ := List.mem_map.mp h
      exact ⟨by simp, hr⟩

/-- Nothing follows a final response to a request. -/
theorem final_last {N : Nat} (ho : ∀ k < N, ∃ es fin : List Op, ans k = es ++ fin ∧ fin.length ≤ 1 ∧
      ∀ r ∈ es, Merger.isFinal r.build = false) {n : Nat} {x : Nat × Op} (hx : (answers ans N)[n]? = some x)
    (hf : Merger.isFinal x.2.build = true) : ∀ y ∈ (answers ans N).drop (n + 1), y.1 ≠ x.1 := by
  induction N with
  | zero => cases hx
  | succ N ih =>
    have ho' := fun k (hk : k < N) => ho k (by omega)
    rw [answers] at hx ⊢
    by_cases hn : n < (answers ans N).length
    · rw [List.getElem?_append_left hn] at hx
      have hxm := answers_mem (List.mem_of_getElem? hx)
      intro y hy
      rw [List.drop_append_of_le_length (by omega)] at hy
      rcases List.mem_append.mp hy with hy | hy
      · exact ih ho' hx y hy
      · obtain ⟨r, hr, rfl⟩ := List.mem_map.mp hy
        simp only; omega
    · rw [List.getElem?_append_right (by omega)] at hx
      obtain ⟨es, fin, he, hl, hes⟩ := ho N (by omega)
      have hp : n - (answers ans N).length < (ans N).length := by
        have := (List.getElem?_eq_some_iff.mp hx).1
        simpa using this
      have hge : es.length ≤ n - (answers ans N).length := by
        apply Nat.le_of_not_lt
        intro hlt
        rw [he, List.map_append, List.getElem?_append_left (by simpa using hlt)] at hx
        obtain ⟨r, hr, hrx⟩ := List.mem_map.mp (List.mem_of_getElem? hx)
        have := hes r hr
        rw [← hrx] at hf
        simp only at hf
        rw [this] at hf
        cases hf
      have hlen : (ans N).length = es.length + fin.length := by rw [he, List.length_append]
      intro y hy
      rw [List.drop_eq_nil_of_le (by simp only [List.length_append, List.length_map]; omega)] at hy
      cases hy
end

/-! ### The state of the proxy -/

/-- The number of a message id. -/
def idOf (ms : List Msg) (k : Nat) : Int := (ms[k]?.map Msg.id).getD 0

/-- `n` requests have been received, the first `w` have been written to the server, and the first `r` answers have been passed
on. -/
structure Core (ms : List Msg) (ans : Nat → List Op) (w n r : Nat) (s : St) : Prop where
  le : w ≤ n ∧ n ≤ ms.length
  connected : s.connected = true
  noTls : s.useTls = false
  requests : s.requests = upto ms (fun _ m => ⟨.int m.id, [], false, false⟩) n
  sent : s.sent = ((answers ans ms.length).take r).map fun x => ⟨x.1, true, .int (idOf ms x.1), x.2.build⟩
  wrote : s.wrote = upto ms (fun k m => ((k : Int) + 1, k, received m.op, none)) w
  nextId : s.nextId = w + 1
  keys : ∀ e ∈ s.onwire, e.1 ≤ w
  found : ∀ x ∈ (answers ans ms.length).drop r, x.1 < w → s.onwire.lookup ((x.1 : Int) + 1) = some x.1

theorem encodes_received {op : Op} {i : Int} : encodes (.int i) (received op) = encodes (.int i) op.build := by
  cases op with
  | search base scope deref sl tl ty f as => cases ty <;> simp [encodes, received, Op.build, toWire, boolVal, encBool]
  | modifyDN dn n del s => cases del <;> simp [encodes, received, Op.build, toWire, boolVal, encBool]
  | reference us =>
    have : ∀ us : List Bytes, toWireList (us.map fun u => Obj.oct .ldapString 0x04 u) = toWireList (us.map octet) := by
      intro us
      induction us with
      | nil => rfl
      | cons u us ih => simp only [List.map_cons, toWireList, ih, octet, toWire]
    simp only [encodes, received, Op.build, toWire, this]
  | _ => rfl

theorem wire_received {op : Op} {i : Int} : toWire (.message (.int i) (received op) none) = toWire (.message (.int i) op.build none) := by
  cases op with
  | search base scope deref sl tl ty f as => cases ty <;> simp [received, Op.build, toWire, boolVal, encBool]
  | modifyDN dn n del s => cases del <;> simp [received, Op.build, toWire, boolVal, encBool]
  | reference us =>
    have : ∀ us : List Bytes, toWireList (us.map fun u => Obj.oct .ldapString 0x04 u) = toWireList (us.map octet) := by
      intro us
      induction us with
      | nil => rfl
      | cons u us ih => simp only [List.map_cons, toWireList, ih, octet, toWire]
    simp only [received, Op.build, toWire, this]
  | _ => rfl

theorem lookup_append_new {l : List (Int × Nat)} {w : Int} {k : Nat} (h : ∀ e ∈ l, e.1 ≤ w) :
    (l ++ [(w + 1, k)]).lookup (w + 1) = some k := by
  induction l with
  | nil => simp [List.lookup]
  | cons e l ih =>
    have := h e List.mem_cons_self
    rw [List.cons_append, List.lookup_cons, show ((w + 1) == e.1) = false by simp; omega]
    exact ih fun e he => h e (List.mem_cons_of_mem _ he)

theorem lookup_append_old {l m : List (Int × Nat)} {i : Int} {k : Nat} (h : l.lookup i = some k) : (l ++ m).lookup i = some k := by
  induction l with
  | nil => cases h
  | cons e l ih =>
    rw [List.cons_append, List.lookup_cons]
    rw [List.lookup_cons] at h
    split
    · simp_all
    · simp_all

theorem lookup_filter_ne {l : List (Int × Nat)} {i j : Int} (h : j ≠ i) : (l.filter fun e => e.1 ≠ i).lookup j = l.lookup j := by
  induction l with
  | nil => rfl
  | cons e l ih =>
    rw [List.filter_cons, List.lookup_cons]
    by_cases he : e.1 = i
    · rw [if_neg (by simpa using he), show (j == e.1) = false by simp [he, h]]
      exact ih
    · rw [if_pos (by simpa using he), List.lookup_cons, ih]

section
variable {ms : List Msg} {ans : Nat → List Op} (F : Common ms ans)
include F

theorem needs {k : Nat} {m : Msg} (hm : ms[k]? = some m) :
    (Client.needsAnswer (received m.op) = some true) ∨ (Client.needsAnswer (received m.op) = some false ∧ m.op = .unbind) := by
  rcases F.kind m (List.mem_of_getElem? hm) with h | h
  · left
    have := answerable_received h
    generalize received m.op = o at this
    cases this <;> rfl
  · right
    rw [h]
    exact ⟨rfl, rfl⟩

theorem idRange_succ {k : Nat} (hk : k < ms.length) : IdRange ((k : Int) + 1) := by
  have := F.few
  unfold IdRange
  omega

theorem encodes_op' {k : Nat} {m : Msg} (hm : ms[k]? = some m) {i : Int} (hi : IdRange i) : encodes (.int i) (received m.op) = true := by
  rw [encodes_received]
  exact encodes_op i _ ⟨Int.le_of_lt hi.1, hi.2⟩ (F.size m (List.mem_of_getElem? hm))

/-- A request is passed on. -/
theorem core_forward {w n r : Nat} {s : St} (h : Core ms ans w n r s) (hc : s.client = true) (hu : s.upConnected = true)
    (hw : w < n) {m : Msg} (hm : ms[w]? = some m) (controls : Client.Controls) :
    Core ms ans (w + 1) n r (forward plainHooks s w (received m.op) controls) ∧
    (forward plainHooks s w (received m.op) controls).client = true ∧
    (forward plainHooks s w (received m.op) controls).upConnected = true ∧
    (forward plainHooks s w (received m.op) controls).link = s.link ∧
    (forward plainHooks s w (received m.op) controls).queued = s.queued := by
  have hlt : w < ms.length := (List.getElem?_eq_some_iff.mp hm).1
  have henc : encodes (.int s.nextId) (received m.op) = true := by
    rw [h.nextId]
    exact encodes_op' F hm (idRange_succ F hlt)
  have hwr : s.wrote ++ [(s.nextId, w, received m.op, none)] = upto ms (fun k m => ((k : Int) + 1, k, received m.op, none)) (w + 1) := by
    rw [upto_succ hm, h.wrote, h.nextId]
  have hcore : ∀ onwire, (∀ e ∈ onwire, e.1 ≤ ((w + 1 : Nat) : Int)) →
      (∀ x ∈ (answers ans ms.length).drop r, x.1 < w + 1 → onwire.lookup ((x.1 : Int) + 1) = some x.1) →
      Core ms ans (w + 1) n r { s with nextId := s.nextId + 1, onwire := onwire, wrote := s.wrote ++ [(s.nextId, w, received m.op, none)] } := by
    intro onwire h1 h2
    exact ⟨⟨by omega, h.le.2⟩, h.connected, h.noTls, h.requests, h.sent, hwr, by simp only [h.nextId]; omega, h1, h2⟩
  rcases needs F hm with ha | ⟨ha, hunb⟩
  · have he : forward plainHooks s w (received m.op) controls =
        { s with nextId := s.nextId + 1, onwire := s.onwire ++ [(s.nextId, w)], wrote := s.wrote ++ [(s.nextId, w, received m.op, none)] } := by
      simp [forward, hc, ask, plainHooks, replyAll, forwardit, hu, ha, henc]
    rw [he]
    refine ⟨hcore _ ?_ ?_, hc, hu, rfl, rfl⟩
    · intro e he
      rcases List.mem_append.mp he with he | he
      · have := h.keys e he; omega
      · simp only [List.mem_singleton] at he
        rw [he]; simp only [h.nextId]; omega
    · intro x hx hxw
      by_cases hxw' : x.1 < w
      · exact lookup_append_old (h.found x hx hxw')
      · have : x.1 = w := by omega
        rw [this, h.nextId]
        exact lookup_append_new h.keys
  · have he : forward plainHooks s w (received m.op) controls =
        { s with nextId := s.nextId + 1, onwire := s.onwire, wrote := s.wrote ++ [(s.nextId, w, received m.op, none)] } := by
      simp [forward, hc, ask, plainHooks, replyAll, forwardit, hu, ha, henc]
    rw [he]
    refine ⟨hcore _ ?_ ?_, hc, hu, rfl, rfl⟩
    · intro e he
      have := h.keys e he; omega
    · intro x hx hxw
      by_cases hxw' : x.1 < w
      · exact h.found x hx hxw'
      · have hx2 := (answers_mem (List.mem_of_mem_drop hx)).2
        have : x.1 = w := by omega
        rw [this, F.silent w m hm hunb] at hx2
        cases hx2

/-- A response is passed on. -/
theorem core_response {w n r : Nat} {s : St} (h : Core ms ans w n r s) (hu : s.upConnected = true) {x : Nat × Op}
    (hx : (answers ans ms.length)[r]? = some x) (hw : x.1 < w) :
    s.onwire.lookup ((x.1 : Int) + 1) = some x.1 ∧
    Core ms ans w n (r + 1) (step plainHooks s (.response ((x.1 : Int) + 1) x.2.build)) ∧
    (step plainHooks s (.response ((x.1 : Int) + 1) x.2.build)).client = s.client ∧
    (step plainHooks s (.response ((x.1 : Int) + 1) x.2.build)).upConnected = s.upConnected ∧
    (step plainHooks s (.response ((x.1 : Int) + 1) x.2.build)).link = s.link ∧
    (step plainHooks s (.response ((x.1 : Int) + 1) x.2.build)).queued = s.queued := by
  have hrlt : r < (answers ans ms.length).length := (List.getElem?_eq_some_iff.mp hx).1
  have hmem := answers_mem (List.mem_of_getElem? hx)
  have hR := F.response x.1 hmem.1 x.2 hmem.2
  have hdrop : (answers ans ms.length).drop r = x :: (answers ans ms.length).drop (r + 1) := by
    rw [List.drop_eq_getElem?_toList_append, hx]; rfl
  have hlook := h.found x (by rw [hdrop]; exact List.mem_cons_self) hw
  have hmk := List.getElem?_eq_getElem (show x.1 < ms.length from hmem.1)
  generalize ms[x.1] = m at hmk
  have hq : s.requests[x.1]? = some ⟨.int m.id, [], false, false⟩ := by
    rw [h.requests]
    exact upto_get h.le.2 (by have := h.le.1; omega) hmk
  have hid : idOf ms x.1 = m.id := by simp [idOf, hmk]
  have henc : encodes (.int m.id) x.2.build = true := hR.encodes _ (F.id m (List.mem_of_getElem? hmk))
  have hset : s.requests.set x.1 ⟨.int m.id, [], false, false⟩ = s.requests := by
    apply List.ext_getElem?
    intro i
    rw [List.getElem?_set]
    split
    · rename_i hi
      rw [← hi, hq]
      have := (List.getElem?_eq_some_iff.mp hq).1
      simp [this]
    · rfl
  have hsent : s.sent ++ [⟨x.1, true, .int m.id, x.2.build⟩] =
      ((answers ans ms.length).take (r + 1)).map fun x => ⟨x.1, true, .int (idOf ms x.1), x.2.build⟩ := by
    rw [List.take_add_one, hx, Option.toList_some, List.map_append, ← h.sent, List.map_singleton, hid]
  have hresp : step plainHooks s (.response ((x.1 : Int) + 1) x.2.build) =
      { s with hooks := s.hooks ++ [⟨x.1, x.2.build, .fired (some x.2.build)⟩],
               sent := s.sent ++ [⟨x.1, true, .int m.id, x.2.build⟩],
               onwire := if Merger.isFinal x.2.build then s.onwire.filter fun e => e.1 ≠ (x.1 : Int) + 1 else s.onwire } := by
    simp only [step, response, hu, hR.response, Bool.and_self, if_true, hlook, hq, plainHooks, After.state]
    simp only [drain, List.getElem?_concat_length, reply, hq, h.connected, henc, Bool.and_self, if_true, setRequest, hset]
    split <;> simp_all
  rw [hresp]
  refine ⟨hlook, ⟨h.le, h.connected, h.noTls, h.requests, hsent, h.wrote, h.nextId, ?_, ?_⟩, rfl, rfl, rfl, rfl⟩
  · intro e he
    simp only at he
    split at he
    · exact h.keys e (List.mem_filter.mp he).1
    · exact h.keys e he
  · intro y hy hyw
    have hold := h.found y (by rw [hdrop]; exact List.mem_cons_of_mem _ hy) hyw
    simp only
    split
    · rename_i hf
      have := final_last F.order hx hf y hy
      rw [lookup_filter_ne (by omega)]
      exact hold
    · exact hold

end
end Verif.ProxySession
