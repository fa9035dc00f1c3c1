import Verif.Lemmas.ProxySystem
import Verif.Lemmas.Client
import Verif.Spec.Concurrent
import Verif.Props.C40
/-
A client with several requests under way: what it has written and what it remembers.
-/
namespace Verif.Concurrent
open Verif.Ldap Verif.Spec Verif.Server Verif.ProxySession Verif.Conn
open Verif.Client (World Note Pending App Outcome)

/-! ### What the server answers -/

def isSearch : Obj → Bool
  | .searchRequest .. => true
  | _ => false

def isDone : Obj → Bool
  | .result .searchResultDone .. => true
  | _ => false

/-- The answers to one request. -/
structure Shape (request : Obj) (ans : List Op) : Prop where
  one : isSearch request = false → ans.length ≤ 1
  entries : ∀ j r, ans[j]? = some r → j + 1 < ans.length → isDone r.build = false
  last : ∀ r, ans.getLast? = some r → isSearch request = true → isDone r.build = true

theorem isSearch_received (op : Op) : isSearch (received op) = isSearch op.build := by
  cases op <;> rfl

theorem shape_one {env : Env} {luck : Luck} {st st' : State} {m : Msg} {ans : List Op} (hp : Passable luck st m)
    (hsilent : m.op = .unbind → ans = [])
    (hserve : serve env luck st (.message (.int 1) (received m.op) none) = some ⟨st', ans.map fun r => (.int 1, r.build)⟩) :
    Shape m.op.build ans := by
  rcases hp.kind with hk | hk
  case inr =>
    rw [hsilent hk]
    exact ⟨by simp, by simp, by simp⟩
  by_cases hl : DeletesNonLeaf env st (received m.op)
  · obtain ⟨t, v, hreq, hcall⟩ := nonleaf_unanswered (luck := luck) (id := .int 1) hl
    have hnil : ans = [] := by
      rw [hreq] at hserve
      rw [hreq] at hcall
      simp only [Server.serve, isRequest, hcall, Fault.report, failWith, final, object_unsent] at hserve
      simp only [PyVal.int.injEq, if_true] at hserve
      rw [if_neg (by omega)] at hserve
      simp only [Option.some.injEq, Served.mk.injEq] at hserve
      have := hserve.2
      simpa using this.symm
    rw [hnil]
    exact ⟨by simp, by simp, by simp⟩
  · obtain ⟨s, entries, op, h1, h2, h3, h4, h5⟩ := C40.answered_once_partial env luck st 1 (received m.op) none ⟨by omega, by omega⟩
      (answerable_received hk) (fits_received hp.fits) hl
    rw [hserve] at h1
    cases h1
    simp only at h2
    obtain ⟨es, fin, he, hes, hfin⟩ := List.map_eq_append_iff.mp h2
    obtain ⟨f, rfl, hf⟩ : ∃ f, fin = [f] ∧ f.build = op.build := by
      rw [List.map_eq_singleton_iff] at hfin
      obtain ⟨f, h6, h7⟩ := hfin
      exact ⟨f, h6, by simpa using h7⟩
    have hent : ∀ r ∈ es, IsEntry r.build := by
      intro r hr
      have : (PyVal.int 1, r.build) ∈ entries.map fun o => (PyVal.int 1, o) := by
        rw [← hes]
        exact List.mem_map.mpr ⟨r, hr, rfl⟩
      obtain ⟨o, ho, hx⟩ := List.mem_map.mp this
      simp only [Prod.mk.injEq, true_and] at hx
      rw [← hx]
      exact h4 o ho
    rw [he]
    refine ⟨fun hn => ?_, fun j r hj hlen => ?_, fun r hr hsr => ?_⟩
    · have : entries = [] := by
        apply Classical.byContradiction
        intro hne
        obtain ⟨t, b, s, d, sl, tl, ty, fl, as, hx⟩ := h5 hne
        rw [← isSearch_received, hx] at hn
        cases hn
      rw [this] at hes
      have : es = [] := by simpa using hes
      rw [this]
      simp
    · rw [List.length_append, List.length_singleton] at hlen
      rw [List.getElem?_append_left (by omega)] at hj
      obtain ⟨n, a, hx⟩ := hent r (List.mem_of_getElem? hj)
      rw [hx]
      rfl
    · rw [List.getLast?_append] at hr
      simp only [List.getLast?_singleton, Option.some_or, Option.some.injEq] at hr
      rw [← hr, hf]
      rw [← isSearch_received] at hsr
      generalize received m.op = o at hsr h3
      cases h3 <;> first | rfl | cases hsr

theorem shape {env : Env} {lucks : Nat → Luck} {st : State} {ms : List Msg} {b : Bytes} {S : Nat → State} {ans : Nat → List Op}
    (hs : Session env lucks st ms) (hw : Wires (ms.map Msg.build) b) (F : Facts env lucks ms S ans)
    (hafter : ∀ k, k ≤ ms.length → (after env lucks st ms k).1.state = S k) {k : Nat} {m : Msg} (hm : ms[k]? = some m) :
    Shape m.op.build (ans k) := by
  have hlt : k < ms.length := (List.getElem?_eq_some_iff.mp hm).1
  have hp := passable hs hw hm
  rw [hafter k (by omega)] at hp
  exact shape_one hp (F.silent k m hm) (F.serve k m hm 1 none ⟨by omega, by omega⟩ rfl)

/-! ### What has been answered -/

section
variable (ms : List Msg) (ans : Nat → List Op)

/-- The request is a search. -/
def searching (k : Nat) : Bool := match ms[k]? with | some m => isSearch m.op.build | none => false

/-- Nothing is to follow this response. -/
def ends (x : Nat × Op) : Bool := !searching ms x.1 || isDone x.2.build

/-- The request `k` is complete after the first `r` responses. -/
def fin (r k : Nat) : Bool := ((answers ans ms.length).take r).any fun x => x.1 == k && ends ms x

/-- The responses to the request `k` among the first `r`. -/
def got (r k : Nat) : List Obj := (((answers ans ms.length).take r).filter fun x => x.1 == k).map fun x => x.2.build

variable {ms ans}

theorem fin_succ {r : Nat} {x : Nat × Op} (hx : (answers ans ms.length)[r]? = some x) (k : Nat) :
    fin ms ans (r + 1) k = (fin ms ans r k || (x.1 == k && ends ms x)) := by
  unfold fin
  rw [List.take_add_one, hx, Option.toList_some, List.any_append]
  simp

theorem got_succ {r : Nat} {x : Nat × Op} (hx : (answers ans ms.length)[r]? = some x) (k : Nat) :
    got ms ans (r + 1) k = got ms ans r k ++ if x.1 = k then [x.2.build] else [] := by
  unfold got
  rw [List.take_add_one, hx, Option.toList_some, List.filter_append, List.map_append]
  congr 1
  by_cases h : x.1 = k <;> simp [h]

theorem answers_shape {N : Nat} {r : Nat} {x : Nat × Op} (hx : (answers ans N)[r]? = some x) :
    ∃ j : Nat, (ans x.1)[j]? = some x.2 ∧ ∀ (r' : Nat) (y : Nat × Op), r' < r → (answers ans N)[r']? = some y → y.1 = x.1 →
      ∃ j' : Nat, j' < j ∧ (ans x.1)[j']? = some y.2 := by
  induction N with
  | zero => cases hx
  | succ N ih =>
    rw [answers] at hx
    by_cases hn : r < (answers ans N).length
    · rw [List.getElem?_append_left hn] at hx
      obtain ⟨j, h1, h2⟩ := ih hx
      refine ⟨j, h1, fun r' y hr hy hyx => ?_⟩
      rw [answers, List.getElem?_append_left (by omega)] at hy
      exact h2 r' y hr hy hyx
    · rw [List.getElem?_append_right (by omega), List.getElem?_map] at hx
      cases hj : (ans N)[r - (answers ans N).length]? with
      | none => rw [hj] at hx; cases hx
      | some o =>
        rw [hj] at hx
        cases hx
        refine ⟨_, hj, fun r' y hr hy hyx => ?_⟩
        simp only at hyx
        rw [answers] at hy
        by_cases hn' : r' < (answers ans N).length
        · rw [List.getElem?_append_left hn'] at hy
          have := (answers_mem (List.mem_of_getElem? hy)).1
          omega
        · rw [List.getElem?_append_right (by omega), List.getElem?_map] at hy
          refine ⟨r' - (answers ans N).length, by omega, ?_⟩
          cases hj' : (ans N)[r' - (answers ans N).length]? with
          | none => rw [hj'] at hy; cases hy
          | some o' => rw [hj'] at hy; cases hy; rfl

/-- A response comes before the request is complete. -/
theorem not_yet (hsh : ∀ k m, ms[k]? = some m → Shape m.op.build (ans k)) {r : Nat} {x : Nat × Op}
    (hx : (answers ans ms.length)[r]? = some x) : fin ms ans r x.1 = false := by
  unfold fin
  rw [List.any_eq_false]
  intro y hy
  obtain ⟨r', hr', hy'⟩ := List.mem_iff_getElem.mp hy
  rw [List.length_take] at hr'
  rw [List.getElem_take] at hy'
  simp only [Bool.and_eq_true, beq_iff_eq, not_and, Bool.not_eq_true]
  intro hyx
  obtain ⟨j, h1, h2⟩ := answers_shape hx
  obtain ⟨j', hj, h3⟩ := h2 r' y (by omega) (by rw [← hy']; exact List.getElem?_eq_getElem _) hyx
  have hlt := (answers_mem (List.mem_of_getElem? hx)).1
  have hm := List.getElem?_eq_getElem hlt
  have hS := hsh _ _ hm
  have hj1 : j < (ans x.1).length := (List.getElem?_eq_some_iff.mp h1).1
  unfold ends searching
  rw [hyx, hm]
  simp only [Bool.or_eq_false_iff, Bool.not_eq_false']
  refine ⟨?_, hS.entries j' y.2 h3 (by omega)⟩
  cases hse : isSearch ms[x.1].op.build with
  | true => rfl
  | false => have := hS.one hse; omega

theorem got_future {r k : Nat} (h : ms.length ≤ k) : got ms ans r k = [] := by
  unfold got
  rw [List.map_eq_nil_iff, List.filter_eq_nil_iff]
  intro x hx
  have := (answers_mem (List.mem_of_mem_take hx)).1
  simp; omega

end

/-! ### The client -/

/-- What somebody is told of a response. -/
def tell (p : Pending) (op : Obj) : Note :=
  if p.handler then .handled p.d op (if p.returnControls then some none else none)
  else match p.chain with
    | .plain => .fired p.d (if p.returnControls then .responseControls op none else .response op)
    | _ => .fired p.d (Client.bindOutcome op)

/-- Who wants the answers. -/
structure Wants (p : Pending) (op : Obj) : Prop where
  handler : p.handler = isSearch op
  chain : p.chain ≠ .startTLS

/-- `n` requests have been made; `fin` tells which are complete, `done` which Deferreds may have been fired, and `got` what each
has been told. -/
structure Client (ms : List Msg) (c n : Nat) (fin done : Nat → Bool) (got : Nat → List Obj) (w : World) : Prop where
  le : n ≤ ms.length
  connected : (w.conns c).connected = true
  nextId : w.nextId = n + 1
  deferreds : w.deferreds.length = n
  asked : (asked c w.log).length = n
  each : ∀ (k : Nat) x, (Spec.asked c w.log)[k]? = some x → ∃ m, ms[k]? = some m ∧ x.1 = (k : Int) + 1 ∧ x.2.1.d = k ∧
    x.2.2 = m.op.build ∧ Wants x.2.1 m.op.build
  wrote : octetsOut c w.log = bytesOf (fwd ms n)
  wire : ∀ (k : Nat) x, (Spec.asked c w.log)[k]? = some x → (w.conns c).onwire.lookup ((k : Int) + 1) = if fin k then none else some x.2.1
  keys : ∀ e ∈ (w.conns c).onwire, e.1 ≤ n
  waiting : ∀ k < n, done k = false → w.deferreds[k]? = some .waiting
  told : ∀ (k : Nat) x, (Spec.asked c w.log)[k]? = some x → told k w.log = (got k).map (tell x.2.1)
  future : ∀ k, n ≤ k → Spec.told k w.log = []

/-- The requests are among those of the session. -/
def Within (ms : List Msg) (c : Nat) (w : World) : Prop := (asked c w.log).map (·.2.2) <+: ms.map fun m => m.op.build

theorem asked_append (c : Nat) (l m : List Note) : asked c (l ++ m) = asked c l ++ asked c m := List.filterMap_append

theorem told_append (d : Nat) (l m : List Note) : told d (l ++ m) = told d l ++ told d m := List.filter_append ..

theorem octetsOut_append (c : Nat) (l m : List Note) : octetsOut c (l ++ m) = octetsOut c l ++ octetsOut c m := List.flatMap_append ..

theorem Within.back {ms : List Msg} {c : Nat} {w w' : World} {l : List Note} (h : Within ms c w') (hl : w'.log = w.log ++ l) :
    Within ms c w := by
  unfold Within at h ⊢
  rw [hl, asked_append, List.map_append] at h
  exact (List.prefix_append ..).trans h

theorem lookup_new {l : List (Int × Pending)} {w : Int} {p : Pending} (h : ∀ e ∈ l, e.1 < w) :
    l.lookup w = none ∧ (l ++ [(w, p)]).lookup w = some p := by
  induction l with
  | nil => simp [List.lookup]
  | cons e l ih =>
    have := h e List.mem_cons_self
    rw [List.cons_append, List.lookup_cons, List.lookup_cons, show (w == e.1) = false by simp; omega]
    exact ih fun e he => h e (List.mem_cons_of_mem _ he)

theorem lookup_old {l : List (Int × Pending)} {w i : Int} {p : Pending} (h : i ≠ w) : (l ++ [(w, p)]).lookup i = l.lookup i := by
  induction l with
  | nil => simp [List.lookup, show (i == w) = false by simpa using h]
  | cons e l ih =>
    rw [List.cons_append, List.lookup_cons, List.lookup_cons, ih]

section
variable {ms : List Msg} {ans : Nat → List Op} (F : Common ms ans)
include F

/-- A request is made. -/
theorem client_send {c n : Nat} {f done : Nat → Bool} {g : Nat → List Obj} {w : World} (h : Client ms c n f done g w)
    (hf : f n = false) (hg : g n = []) {op : Obj} {rc hd : Bool} {ch : Client.Chain}
    (ha : Client.needsAnswer op = some true) (hw : Wants ⟨n, rc, hd, ch⟩ op)
    (hG : Within ms c (Client.sendNew w c op none rc hd ch)) :
    Client ms c (n + 1) f done g (Client.sendNew w c op none rc hd ch) := by
  have hkeys : ∀ e ∈ (w.conns c).onwire, e.1 < w.nextId := fun e he => by rw [h.nextId]; have := h.keys e he; omega
  have hnew := lookup_new (p := ⟨n, rc, hd, ch⟩) hkeys
  have hlen := h.deferreds
  have hsent : ∃ note, (note = .refused c .encoding ∨ ∃ b, note = .written c b ∧ toWire (.message (.int w.nextId) op none) = .ok b) ∧
      (note = .refused c .encoding → ∃ e, toWire (.message (.int w.nextId) op none) = .error e) ∧
      Client.sendNew w c op none rc hd ch = { w with
        nextId := w.nextId + 1
        conns := fun x => if x = c then { w.conns c with onwire := (w.conns c).onwire ++ [(w.nextId, ⟨n, rc, hd, ch⟩)] } else w.conns x
        deferreds := w.deferreds ++ [.waiting]
        log := w.log ++ [.made c w.nextId, .sent c w.nextId ⟨n, rc, hd, ch⟩ op, note] } := by
    cases hb : toWire (.message (.int w.nextId) op none) with
    | ok b =>
      refine ⟨.written c b, .inr ⟨b, rfl, rfl⟩, nofun, ?_⟩
      simp [Client.sendNew, Client.sendOn, Client.prepare, h.connected, World.note, hnew.1, ha, Client.register,
        World.setConn, Client.write, hb, hlen]
    | error e =>
      refine ⟨.refused c .encoding, .inl rfl, fun _ => ⟨e, rfl⟩, ?_⟩
      simp [Client.sendNew, Client.sendOn, Client.prepare, h.connected, World.note, hnew.1, ha, Client.register,
        World.setConn, Client.write, hb, hlen]
  obtain ⟨note, hnote, href, heq⟩ := hsent
  have hask : asked c (Client.sendNew w c op none rc hd ch).log = asked c w.log ++ [(w.nextId, ⟨n, rc, hd, ch⟩, op)] := by
    rw [heq, asked_append]
    rcases hnote with rfl | ⟨b, rfl, -⟩ <;> simp [asked]
  obtain ⟨m, hm, hop⟩ : ∃ m, ms[n]? = some m ∧ m.op.build = op := by
    unfold Within at hG
    rw [hask, List.map_append] at hG
    obtain ⟨t, ht⟩ := hG
    have := congrArg (·[n]?) ht
    simp only [List.append_assoc] at this
    rw [List.getElem?_append_right (by simp [h.asked]), List.length_map, h.asked, Nat.sub_self, List.getElem?_map] at this
    simp only [List.map_cons, List.map_nil, List.cons_append, List.nil_append, List.getElem?_cons_zero] at this
    cases hx : ms[n]? with
    | none => rw [hx] at this; cases this
    | some m => rw [hx] at this; exact ⟨m, rfl, by simpa using this.symm⟩
  have hlt : n < ms.length := (List.getElem?_eq_some_iff.mp hm).1
  subst hop
  have henc : encodes (.int w.nextId) m.op.build = true := by
    rw [h.nextId, ← encodes_received]
    exact encodes_op' F hm (idRange_succ F hlt)
  have hnote : note = .written c (wire w.nextId m.op) := by
    rcases hnote with rfl | ⟨b, rfl, hb⟩
    · obtain ⟨e, he⟩ := href rfl
      unfold encodes at henc
      rw [he] at henc
      cases henc
    · unfold wire
      rw [hb]
  have hlog : ∀ d, told d (Client.sendNew w c m.op.build none rc hd ch).log = told d w.log := by
    intro d
    rw [heq, told_append, hnote]
    simp [told]
  have hcon : (Client.sendNew w c m.op.build none rc hd ch).conns c =
      { w.conns c with onwire := (w.conns c).onwire ++ [(w.nextId, ⟨n, rc, hd, ch⟩)] } := by
    rw [heq]; simp
  have hget : ∀ (k : Nat) x, (asked c (Client.sendNew w c m.op.build none rc hd ch).log)[k]? = some x →
      (k < n ∧ (asked c w.log)[k]? = some x) ∨ (k = n ∧ x = (w.nextId, ⟨n, rc, hd, ch⟩, m.op.build)) := by
    intro k x hx
    rw [hask] at hx
    have hk := (List.getElem?_eq_some_iff.mp hx).1
    simp only [List.length_append, List.length_singleton, h.asked] at hk
    by_cases hkn : k < n
    · rw [List.getElem?_append_left (by rw [h.asked]; exact hkn)] at hx
      exact .inl ⟨hkn, hx⟩
    · have : k = n := by omega
      subst this
      rw [List.getElem?_append_right (by rw [h.asked]; omega), h.asked, Nat.sub_self] at hx
      exact .inr ⟨rfl, by simpa using hx.symm⟩
  refine ⟨by omega, by rw [hcon]; exact h.connected, by rw [heq]; simp [h.nextId], by rw [heq]; simp [hlen],
    by rw [hask]; simp [h.asked], ?_, ?_, ?_, ?_, ?_, ?_, ?_⟩
  · intro k x hx
    rcases hget k x hx with ⟨-, hx⟩ | ⟨rfl, rfl⟩
    · exact h.each k x hx
    · exact ⟨m, hm, h.nextId, rfl, rfl, hw⟩
  · rw [heq, octetsOut_append, h.wrote, hnote, fwd, fwd, upto_succ hm, bytesOf_append]
    simp [octetsOut, bytesOf, h.nextId]
  · intro k x hx
    rw [hcon]
    simp only
    rcases hget k x hx with ⟨hk, hx⟩ | ⟨rfl, rfl⟩
    · rw [lookup_old (by rw [h.nextId]; omega)]
      exact h.wire k x hx
    · rw [← h.nextId, hnew.2, hf]
      simp
  · intro e he
    rw [hcon] at he
    rcases List.mem_append.mp he with he | he
    · have := h.keys e he; omega
    · rw [List.mem_singleton.mp he]; simp [h.nextId]
  · intro k hk hd
    rw [heq]
    simp only
    by_cases hkn : k < n
    · rw [List.getElem?_append_left (by omega)]
      exact h.waiting k hkn hd
    · have : k = n := by omega
      subst this
      rw [List.getElem?_append_right (by omega), hlen]
      simp
  · intro k x hx
    rw [hlog]
    rcases hget k x hx with ⟨-, hx⟩ | ⟨rfl, rfl⟩
    · exact h.told k x hx
    · rw [hg, h.future k (Nat.le_refl _)]
      rfl
  · intro k hk
    rw [hlog]
    exact h.future k (by omega)

/-- A call. -/
theorem client_call {app : App} {fuel c n : Nat} {f done : Nat → Bool} {g : Nat → List Obj} {w : World} (h : Client ms c n f done g w)
    (hf : f n = false) (hg : g n = []) {x : Client.Call} (hx : Requesting c x) (hG : Within ms c (Client.call app fuel w x)) :
    Client ms c (n + 1) f done g (Client.call app fuel w x) := by
  cases hx with
  | @send op ha hs =>
    have he : Client.call app fuel w (.send c op none) = Client.sendNew w c op none false false .plain := by
      cases fuel <;> simp only [Client.call]
    rw [he] at hG ⊢
    refine client_send F h hf hg (by cases ha <;> rfl) ⟨?_, nofun⟩ hG
    cases op <;> first | rfl | exact (hs _ _ _ _ _ _ _ _ _ rfl).elim
  | sendMulti =>
    have he : ∀ o, Client.call app fuel w (.sendMulti c o true) = Client.sendNew w c o none false true .plain := by
      intro o; cases fuel <;> simp only [Client.call]
    rw [he] at hG ⊢
    exact client_send F h hf hg rfl ⟨rfl, nofun⟩ hG
  | sendMultiEx =>
    have he : ∀ o, Client.call app fuel w (.sendMultiEx c o none true) = Client.sendNew w c o none true true .plain := by
      intro o; cases fuel <;> simp only [Client.call]
    rw [he] at hG ⊢
    exact client_send F h hf hg rfl ⟨rfl, nofun⟩ hG
  | @bind dn auth =>
    have he : Client.call app fuel w (.bind c dn auth) =
        Client.sendNew w c (.bind 0x40 (.int 3) dn (.simple auth)) none false false .bind := by
      cases fuel <;> simp only [Client.call]
    rw [he] at hG ⊢
    exact client_send F h hf hg rfl ⟨rfl, nofun⟩ hG

/-- Several. -/
theorem client_calls {app : App} {fuel c : Nat} {f done : Nat → Bool} {g : Nat → List Obj} (xs : List Client.Call)
    (hx : ∀ x ∈ xs, Requesting c x) : ∀ {n : Nat} {w : World}, Client ms c n f done g w → (∀ k, n ≤ k → f k = false ∧ g k = []) →
      Within ms c (xs.foldl (Client.call app fuel) w) →
      ∃ n', n ≤ n' ∧ Client ms c n' f done g (xs.foldl (Client.call app fuel) w) := by
  induction xs with
  | nil => exact fun h _ _ => ⟨_, Nat.le_refl _, h⟩
  | cons x xs ih =>
    intro n w h hfut hG
    rw [List.foldl_cons] at hG ⊢
    have hG' : Within ms c (Client.call app fuel w x) := by
      obtain ⟨l, hl, -⟩ := Client.calls_log app fuel xs (Client.call app fuel w x)
      exact hG.back hl
    have h' := client_call F h (hfut n (Nat.le_refl _)).1 (hfut n (Nat.le_refl _)).2 (hx x List.mem_cons_self) hG'
    obtain ⟨n', h1, h2⟩ := ih (fun x hx' => hx x (List.mem_cons_of_mem _ hx')) h' (fun k hk => hfut k (by omega)) hG
    exact ⟨n', by omega, h2⟩

omit F in
/-- Somebody is told something. -/
theorem client_told {c n : Nat} {f done done' : Nat → Bool} {g g' : Nat → List Obj} {w : World} (h : Client ms c n f done g w)
    {k : Nat} {x : Int × Pending × Obj} (hx : (asked c w.log)[k]? = some x) {op : Obj} (hg : g' k = g k ++ [op])
    (hg' : ∀ j, j ≠ k → g' j = g j) {ds : List Client.DState} (hlen : ds.length = n)
    (hds : ∀ j < n, done' j = false → ds[j]? = some .waiting) :
    Client ms c n f done' g' { w with deferreds := ds, log := w.log ++ [tell x.2.1 op] } := by
  obtain ⟨m, hm, h1, h2, h3, h4⟩ := h.each k x hx
  have hkn : k < n := by rw [← h.asked]; exact (List.getElem?_eq_some_iff.mp hx).1
  have hask : asked c (w.log ++ [tell x.2.1 op]) = asked c w.log := by
    rw [asked_append]
    unfold tell
    split
    · simp [asked]
    · split <;> simp [asked]
  have hout : octetsOut c (w.log ++ [tell x.2.1 op]) = octetsOut c w.log := by
    rw [octetsOut_append]
    unfold tell
    split
    · simp [octetsOut]
    · split <;> simp [octetsOut]
  have htold : ∀ j, told j (w.log ++ [tell x.2.1 op]) = told j w.log ++ if j = k then [tell x.2.1 op] else [] := by
    intro j
    rw [told_append]
    congr 1
    unfold tell
    by_cases hj : j = k
    · split
      · simp [told, h2, hj]
      · split <;> simp [told, h2, hj]
    · have hj' : ¬ k = j := fun e => hj e.symm
      split
      · simp [told, h2, hj, hj']
      · split <;> simp [told, h2, hj, hj']
  refine ⟨h.le, h.connected, h.nextId, hlen, by rw [hask]; exact h.asked, by rw [hask]; exact h.each, by rw [hout]; exact h.wrote,
    by rw [hask]; exact h.wire, h.keys, hds, ?_, ?_⟩
  · intro j y hy
    rw [hask] at hy
    rw [htold, h.told j y hy]
    by_cases hj : j = k
    · subst hj
      rw [hx] at hy
      cases hy
      rw [hg, if_pos rfl, List.map_append]
      rfl
    · rw [hg' j hj, if_neg hj, List.append_nil]
  · intro j hj
    rw [htold, h.future j hj, if_neg (by omega)]
    rfl

omit F in
theorem lookup_filter_self (l : List (Int × Pending)) (i : Int) : (l.filter fun e => e.1 ≠ i).lookup i = none := by
  induction l with
  | nil => rfl
  | cons e l ih =>
    rw [List.filter_cons]
    split
    · rename_i he
      rw [List.lookup_cons, show (i == e.1) = false by simpa using fun h : i = e.1 => absurd h.symm (by simpa using he)]
      exact ih
    · exact ih

omit F in
theorem lookup_filter_other {l : List (Int × Pending)} {i j : Int} (h : j ≠ i) : (l.filter fun e => e.1 ≠ i).lookup j = l.lookup j := by
  induction l with
  | nil => rfl
  | cons e l ih =>
    rw [List.filter_cons, List.lookup_cons]
    by_cases he : e.1 = i
    · rw [if_neg (by simpa using he), show (j == e.1) = false by simp [he, h]]
      exact ih
    · rw [if_pos (by simpa using he), List.lookup_cons, ih]

omit F in
/-- A request is complete. -/
theorem client_forget {c n : Nat} {f f' done : Nat → Bool} {g : Nat → List Obj} {w : World} (h : Client ms c n f done g w)
    {k : Nat} (hf : f' k = true) (hf' : ∀ j, j ≠ k → f' j = f j) : Client ms c n f' done g (Client.forget w c ((k : Int) + 1)) := by
  have hcon : (Client.forget w c ((k : Int) + 1)).conns c =
      { w.conns c with onwire := (w.conns c).onwire.filter fun e => e.1 ≠ (k : Int) + 1 } := by
    simp [Client.forget, World.setConn]
  refine ⟨h.le, by rw [hcon]; exact h.connected, h.nextId, h.deferreds, h.asked, h.each, h.wrote, ?_, ?_, h.waiting, h.told, h.future⟩
  · intro j x hx
    rw [hcon]
    simp only
    by_cases hj : j = k
    · subst hj
      rw [lookup_filter_self, hf]
      simp
    · rw [lookup_filter_other (by omega), hf' j hj]
      exact h.wire j x hx
  · intro e he
    rw [hcon] at he
    exact h.keys e (List.mem_filter.mp he).1

omit F in
theorem client_finished {c n : Nat} {f done : Nat → Bool} {g : Nat → List Obj} {w : World} (h : Client ms c n f done g w) (d : Nat) :
    Client ms c n f done g (w.note (.finished d)) := by
  have h1 : asked c (w.note (.finished d)).log = asked c w.log := by
    show asked c (w.log ++ _) = _
    rw [asked_append]; simp [asked]
  have h2 : octetsOut c (w.note (.finished d)).log = octetsOut c w.log := by
    show octetsOut c (w.log ++ _) = _
    rw [octetsOut_append]; simp [octetsOut]
  have h3 : ∀ j, told j (w.note (.finished d)).log = told j w.log := by
    intro j
    show told j (w.log ++ _) = _
    rw [told_append]; simp [told]
  exact ⟨h.le, h.connected, h.nextId, h.deferreds, by rw [h1]; exact h.asked, by rw [h1]; exact h.each, by rw [h2]; exact h.wrote,
    by rw [h1]; exact h.wire, h.keys, h.waiting, by rw [h1]; intro k x hx; rw [h3]; exact h.told k x hx,
    by intro k hk; rw [h3]; exact h.future k hk⟩

omit F in
theorem client_weaken {c n : Nat} {f done done' : Nat → Bool} {g : Nat → List Obj} {w : World} (h : Client ms c n f done g w)
    (hd : ∀ k, done' k = false → done k = false) : Client ms c n f done' g w :=
  ⟨h.le, h.connected, h.nextId, h.deferreds, h.asked, h.each, h.wrote, h.wire, h.keys, fun k hk hk' => h.waiting k hk (hd k hk'), h.told, h.future⟩

/-- What the client is in after `r` responses. -/
def Answered (ms : List Msg) (ans : Nat → List Op) (c n r : Nat) (w : World) : Prop :=
  Client ms c n (fin ms ans r) (fin ms ans r) (got ms ans r) w ∧ ∀ y ∈ (answers ans ms.length).take r, y.1 < n

omit F in
theorem quiet_future {n r : Nat} (h : ∀ y ∈ (answers ans ms.length).take r, y.1 < n) (r' : Nat) (hr : r' ≤ r) (k : Nat) (hk : n ≤ k) :
    fin ms ans r' k = false ∧ got ms ans r k = [] := by
  constructor
  · unfold fin
    rw [List.any_eq_false]
    intro y hy
    have : y ∈ (answers ans ms.length).take r := (List.take_subset_take_left _ hr) hy
    have := h y this
    simp; omega
  · unfold got
    rw [List.map_eq_nil_iff, List.filter_eq_nil_iff]
    intro y hy
    have := h y hy
    simp; omega

/-- A response arrives. -/
theorem client_response (hsh : ∀ k m, ms[k]? = some m → Shape m.op.build (ans k)) {app : App} {fuel c n r : Nat} {w : World}
    (happ : Collecting c app) (h : Answered ms ans c n r w) {x : Nat × Op} (hx : (answers ans ms.length)[r]? = some x) (hlt : x.1 < n)
    (hG : Within ms c (Client.handle app fuel w c (.message (.int ((x.1 : Int) + 1)) x.2.build none)).1) :
    (Client.handle app fuel w c (.message (.int ((x.1 : Int) + 1)) x.2.build none)).2 = false ∧
      ∃ n', n ≤ n' ∧ Answered ms ans c n' (r + 1) (Client.handle app fuel w c (.message (.int ((x.1 : Int) + 1)) x.2.build none)).1 := by
  obtain ⟨h, hfut⟩ := h
  have hmem := answers_mem (List.mem_of_getElem? hx)
  have hR := F.response x.1 hmem.1 x.2 hmem.2
  have hfut' : ∀ y ∈ (answers ans ms.length).take (r + 1), y.1 < n := by
    intro y hy
    rw [List.take_add_one, hx, Option.toList_some] at hy
    rcases List.mem_append.mp hy with hy | hy
    · exact hfut y hy
    · rw [List.mem_singleton.mp hy]; exact hlt
  have hn := not_yet hsh hx
  have hget := List.getElem?_eq_getElem (show x.1 < (asked c w.log).length by rw [h.asked]; exact hlt)
  generalize (asked c w.log)[x.1]'_ = y at hget
  obtain ⟨m, hm, h1, h2, h3, h4⟩ := h.each _ _ hget
  have hlook := h.wire _ _ hget
  rw [hn] at hlook
  simp only [Bool.false_eq_true, if_false] at hlook
  have h0 : ¬ ((x.1 : Int) + 1 = 0) := by omega
  have hg : got ms ans (r + 1) x.1 = got ms ans r x.1 ++ [x.2.build] := by rw [got_succ hx, if_pos rfl]
  have hg' : ∀ j, j ≠ x.1 → got ms ans (r + 1) j = got ms ans r j := by
    intro j hj
    rw [got_succ hx, if_neg (fun e => hj e.symm), List.append_nil]
  have hfo : ∀ j, j ≠ x.1 → fin ms ans (r + 1) j = fin ms ans r j := by
    intro j hj
    rw [fin_succ hx, show (x.1 == j) = false by simpa using fun e => hj e.symm]
    simp
  have hfs : fin ms ans (r + 1) x.1 = ends ms x := by
    rw [fin_succ hx, hn]; simp
  have hmono : ∀ k, fin ms ans (r + 1) k = false → fin ms ans r k = false := by
    intro k hk
    rw [fin_succ hx] at hk
    exact (Bool.or_eq_false_iff.mp hk).1
  have hends : ends ms x = (!y.2.1.handler || isDone x.2.build) := by
    unfold ends searching
    rw [hm, h4.handler]
  cases hh : y.2.1.handler with
  | true =>
    have hmid := client_told h hget (op := x.2.build) hg hg' (ds := w.deferreds) h.deferreds h.waiting
    have htell : tell y.2.1 x.2.build = .handled y.2.1.d x.2.build (if y.2.1.returnControls then some none else none) := by
      unfold tell; rw [hh]; rfl
    have hwd : ({ w with deferreds := w.deferreds, log := w.log ++ [tell y.2.1 x.2.build] } : World) =
        w.note (.handled y.2.1.d x.2.build (if y.2.1.returnControls then some none else none)) := by rw [htell]; rfl
    rw [hwd] at hmid
    have hfinal := happ.final w.log y.2.1.d x.2.build (if y.2.1.returnControls then some none else none)
    have hcalm := happ.calm (w.note (.handled y.2.1.d x.2.build (if y.2.1.returnControls then some none else none))).log
    have hcalls := happ.calls (w.note (.handled y.2.1.d x.2.build (if y.2.1.returnControls then some none else none))).log
    have hdone : (app (w.note (.handled y.2.1.d x.2.build (if y.2.1.returnControls then some none else none))).log).final = isDone x.2.build := by
      show (app (w.log ++ _)).final = _
      rw [Bool.eq_iff_iff, hfinal]
      unfold isDone
      split
      · rename_i e; simp [e]
      · rename_i e
        constructor
        · rintro ⟨t, a, b, c, d, he⟩; exact absurd he (e _ _ _ _ _)
        · nofun
    have hres : Client.handle app fuel w c (.message (.int ((x.1 : Int) + 1)) x.2.build none) =
        (if isDone x.2.build then (Client.forget ((app (w.note (.handled y.2.1.d x.2.build (if y.2.1.returnControls then some none else none))).log).calls.foldl
            (Client.call app fuel) (w.note (.handled y.2.1.d x.2.build (if y.2.1.returnControls then some none else none)))) c
            ((x.1 : Int) + 1)).note (.finished y.2.1.d)
          else (app (w.note (.handled y.2.1.d x.2.build (if y.2.1.returnControls then some none else none))).log).calls.foldl
            (Client.call app fuel) (w.note (.handled y.2.1.d x.2.build (if y.2.1.returnControls then some none else none))), false) := by
      simp only [Client.handle, hR.response, Bool.not_true, Bool.false_eq_true, if_false, h0, hlook, hh, hcalm, hdone]
      split <;> rfl
    rw [hres] at hG ⊢
    refine ⟨rfl, ?_⟩
    have hG' : Within ms c ((app (w.note (.handled y.2.1.d x.2.build (if y.2.1.returnControls then some none else none))).log).calls.foldl
            (Client.call app fuel) (w.note (.handled y.2.1.d x.2.build (if y.2.1.returnControls then some none else none)))) := by
      simp only at hG
      split at hG
      · exact hG.back (l := [.finished y.2.1.d]) rfl
      · exact hG
    obtain ⟨n', hn', hc⟩ := client_calls F _ hcalls hmid (fun k hk => quiet_future hfut' r (by omega) k hk) hG'
    refine ⟨n', hn', ?_, fun y hy => by have := hfut' y hy; omega⟩
    rw [hh] at hends
    simp only [Bool.not_true, Bool.false_or] at hends
    rw [hends] at hfs
    cases hd : isDone x.2.build with
    | true =>
      rw [hd] at hfs
      simp only [if_true]
      exact client_finished (client_forget (client_weaken hc hmono) hfs hfo) _
    | false =>
      rw [hd] at hfs
      have : fin ms ans (r + 1) = fin ms ans r := by
        funext k
        by_cases hk : k = x.1
        · rw [hk, hfs, hn]
        · exact hfo k hk
      simp only [Bool.false_eq_true, if_false]
      rw [this]
      exact hc
  | false =>
    have hwait := h.waiting _ hlt hn
    obtain ⟨o, htell, hdel⟩ : ∃ o, tell y.2.1 x.2.build = .fired x.1 o ∧
        Client.deliver app fuel w c y.2.1 x.2.build none = Client.fire app fuel w x.1 o := by
      cases hch : y.2.1.chain with
      | plain => exact ⟨_, by simp only [tell, hh, hch, h2]; rfl, by simp only [Client.deliver, hch, h2]⟩
      | bind => exact ⟨_, by simp only [tell, hh, hch, h2]; rfl, by simp only [Client.deliver, hch, h2]⟩
      | startTLS => exact absurd hch h4.chain
    have hmid := client_told h hget (op := x.2.build) (done' := fin ms ans (r + 1)) hg hg' (ds := w.deferreds.set x.1 .done)
      (by rw [List.length_set]; exact h.deferreds) (fun j hj hd => by
        by_cases hjx : j = x.1
        · rw [hjx, hfs, hends, hh] at hd
          cases hd
        · rw [List.getElem?_set_ne (fun e => hjx e.symm)]
          exact h.waiting j hj (hmono j hd))
    have hwd : ({ w with deferreds := w.deferreds.set x.1 .done, log := w.log ++ [tell y.2.1 x.2.build] } : World) =
        (w.setD x.1 .done).note (.fired x.1 o) := by rw [htell]; rfl
    rw [hwd] at hmid
    have hres : Client.handle app fuel w c (.message (.int ((x.1 : Int) + 1)) x.2.build none) =
        (Client.forget (Client.react app fuel ((w.setD x.1 .done).note (.fired x.1 o))) c ((x.1 : Int) + 1), false) := by
      simp only [Client.handle, hR.response, Bool.not_true, Bool.not_false, Bool.false_eq_true, if_false, if_true, h0, hlook, hh, hdel,
        Client.fire, hwait]
    rw [hres] at hG ⊢
    refine ⟨rfl, ?_⟩
    have hG' : Within ms c (Client.react app fuel ((w.setD x.1 .done).note (.fired x.1 o))) := hG.back (l := []) (by simp [Client.forget, World.setConn])
    obtain ⟨n', hn', hc⟩ := client_calls F _ (happ.calls _) hmid (fun k hk => quiet_future hfut' r (by omega) k hk) hG'
    refine ⟨n', hn', ?_, fun y hy => by have := hfut' y hy; omega⟩
    exact client_forget hc (by rw [hfs, hends, hh]; rfl) hfo

/-! ### The client and the server together -/

omit F in
theorem fire_log (app : App) (fuel : Nat) (w : World) (d : Nat) (o : Outcome) :
    ∃ l, (Client.fire app fuel w d o).1.log = w.log ++ l := by
  unfold Client.fire
  split
  · obtain ⟨l, hl, -⟩ := Client.calls_log app fuel (app ((w.setD d .done).note (.fired d o)).log).calls ((w.setD d .done).note (.fired d o))
    exact ⟨[.fired d o] ++ l, by rw [Client.react, hl]; simp [World.note, World.setD]⟩
  · exact ⟨[.dropped d], rfl⟩
  · exact ⟨[], by simp⟩

omit F in
theorem deliver_log (app : App) (fuel : Nat) (w : World) (c : Nat) (p : Pending) (op : Obj) (controls : Client.Controls) :
    ∃ l, (Client.deliver app fuel w c p op controls).1.log = w.log ++ l := by
  unfold Client.deliver
  split
  · exact fire_log ..
  · exact fire_log ..
  · split
    · split
      · obtain ⟨l, hl⟩ := fire_log app fuel (w.note (.startedTLS c)) p.d .tls
        exact ⟨[.startedTLS c] ++ l, by rw [hl]; simp [World.note]⟩
      · exact fire_log ..
    · exact fire_log ..

omit F in
theorem handle_log (app : App) (fuel : Nat) (w : World) (c : Nat) (msg : Obj) :
    ∃ l, (Client.handle app fuel w c msg).1.log = w.log ++ l := by
  unfold Client.handle
  split
  · split
    · exact ⟨[], by simp⟩
    · split
      · split
        · exact ⟨[.unsolicited c _], rfl⟩
        · split
          · exact ⟨[], by simp⟩
          · rename_i op controls _ _ id _ _ p _
            split
            · obtain ⟨l, hl⟩ := deliver_log app fuel w c p op controls
              generalize Client.deliver app fuel w c p op controls = z at hl
              obtain ⟨w', b⟩ := z
              cases b
              · exact ⟨l, by simpa [Client.forget, World.setConn] using hl⟩
              · exact ⟨l, hl⟩
            · generalize Note.handled p.d op _ = note
              obtain ⟨l, hl, -⟩ := Client.calls_log app fuel (app (w.note note).log).calls (w.note note)
              have hl' : ((app (w.note note).log).calls.foldl (Client.call app fuel) (w.note note)).log = w.log ++ (note :: l) := by
                rw [hl]; simp [World.note]
              simp only
              split
              · exact ⟨_, hl'⟩
              · split
                · exact ⟨(note :: l) ++ [.finished p.d], by
                    rw [World.note]
                    simp only [Client.forget, World.setConn, hl']
                    simp⟩
                · exact ⟨_, hl'⟩
      · exact ⟨[], by simp⟩
  · exact ⟨[], by simp⟩

omit F in
theorem within_handle {app : App} {fuel c : Nat} (w : World) (msg : Obj) (h : Within ms c (Session.clientHandle app fuel c w msg).1) :
    Within ms c w := by
  obtain ⟨l, hl⟩ := handle_log app fuel w c msg
  exact h.back hl

end

section
variable {env : Env} {lucks : Nat → Luck} {ms : List Msg} {S : Nat → State} {ans : Nat → List Op} (F : Facts env lucks ms S ans)
include F

/-- `n` requests made, `q` handled by the server, `r` responses handled by the client. -/
structure Whole (ms : List Msg) (S : Nat → State) (ans : Nat → List Op) (c n q r : Nat) (Y : Sys) : Prop where
  alive : Y.dead = false
  serverAlive : Y.server.dead = false
  pf : Pipe (fwd ms n) Y.arrived Y.server.buffer q
  pb : Pipe (bck ans q) Y.returned Y.buffer r
  server : Y.server.st = ⟨S q, (answers ans q).map fun x => (.int ((x.1 : Int) + 1), x.2.build), q⟩
  client : Answered ms ans c n r Y.client

omit F in
theorem whole_start (c : Nat) : Whole ms S ans c 0 0 0 (start c (S 0)) := by
  refine ⟨rfl, rfl, Pipe.start _ (fun x hx => by cases hx), Pipe.start _ (fun x hx => by cases hx), rfl, ?_, by simp⟩
  refine ⟨by omega, by simp [start, World.setConn], rfl, rfl, rfl, ?_, rfl, ?_, ?_, by omega, ?_, fun _ _ => rfl⟩
  · intro k x hx; cases hx
  · intro k x hx; cases hx
  · intro e he
    simp [start, World.setConn] at he
  · intro k x hx; cases hx

omit F in
theorem whole_le {c n q r : Nat} {Y : Sys} (h : Whole ms S ans c n q r Y) : n ≤ ms.length ∧ q ≤ n := by
  have h1 := h.client.1.le
  refine ⟨h1, ?_⟩
  have := h.pf.le
  rwa [fwd, upto_length h1] at this

omit F in
/-- A request is made or answers arrive. -/
theorem whole_other (F : Common ms ans) (hsh : ∀ k m, ms[k]? = some m → Shape m.op.build (ans k)) {app : App} {fuel c n q r : Nat} {Y : Sys}
    (happ : Collecting c app) (h : Whole ms S ans c n q r Y) (e : Event) (he : ∀ x, e = .call x → Requesting c x) (ho : ∀ k, e ≠ .out k)
    (hG : Within ms c (Y.step env lucks app fuel c e).client) :
    ∃ n' r', Whole ms S ans c n' q r' (Y.step env lucks app fuel c e) := by
  obtain ⟨hn, hq⟩ := whole_le h
  have hgrow : ∀ {n'}, n ≤ n' → n' ≤ ms.length → Pipe (fwd ms n') Y.arrived Y.server.buffer q := by
    intro n' h1 h2
    obtain ⟨M, hM, hD⟩ := fwd_grow F h1 h2
    rw [hM]
    exact h.pf.grow hD
  cases e with
  | call x =>
    have hfut := quiet_future h.client.2 r (Nat.le_refl _) n (Nat.le_refl _)
    have hc := client_call F h.client.1 hfut.1 hfut.2 (he x rfl) hG
    exact ⟨n + 1, r, h.alive, h.serverAlive, hgrow (by omega) hc.le, h.pb, h.server, hc,
      fun y hy => by have := h.client.2 y hy; omega⟩
  | out k => exact absurd rfl (ho k)
  | back k =>
    have hto : Y.toClient = bytesOf (bck ans q) := by
      rw [Sys.toClient, h.server, octets_answers]
    have hql : q ≤ ms.length := by omega
    have ha := h.alive
    have hG' : Within ms c (dataReceived (Session.clientHandle app fuel c) ⟨Y.buffer, Y.client, false⟩
        (((bytesOf (bck ans q)).drop Y.returned).take k)).st := by
      simpa only [Sys.step, hto, ha] using hG
    obtain ⟨r', buf', s', h1, h2, ⟨n', h3, h3'⟩, h4⟩ := Pipe.receiveGuarded (handle := Session.clientHandle app fuel c) (decodes_bck F hql)
      (J := fun r w => ∃ n', n ≤ n' ∧ Answered ms ans c n' r w) (G := Within ms c) within_handle
      (fun r w x hx hp hg => by
        obtain ⟨n', hn', hp⟩ := hp
        rw [bck, List.getElem?_map] at hx
        cases hy : (answers ans q)[r]? with
        | none => rw [hy] at hx; cases hx
        | some y =>
          rw [hy] at hx
          have hx := (Option.some.inj hx).symm
          simp only at hx
          subst hx
          have hylt := (answers_mem (List.mem_of_getElem? hy)).1
          obtain ⟨M, hM⟩ := answers_prefix (ans := ans) hql
          obtain ⟨g1, n2, g2, g3⟩ := client_response F hsh happ hp (x := y)
            (by rw [hM, List.getElem?_append_left (List.getElem?_eq_some_iff.mp hy).1, hy]) (by omega) hg
          exact ⟨g1, n2, by omega, g3⟩) h.pb ⟨n, Nat.le_refl _, h.client⟩ k hG'
    refine ⟨n', r', ?_⟩
    have hstep : Y.step env lucks app fuel c (.back k) =
        { Y with client := s', buffer := buf', dead := false, returned := min (Y.returned + k) (bytesOf (bck ans q)).length } := by
      simp only [Sys.step, hto, ha, h2]
    rw [hstep]
    exact ⟨rfl, h.serverAlive, hgrow h3 h3'.1.le, h4, h.server, h3'⟩

/-- Every step keeps the books. -/
theorem whole_step (hsh : ∀ k m, ms[k]? = some m → Shape m.op.build (ans k)) {app : App} {fuel c n q r : Nat} {Y : Sys}
    (happ : Collecting c app) (h : Whole ms S ans c n q r Y) (e : Event) (he : ∀ x, e = .call x → Requesting c x)
    (hG : Within ms c (Y.step env lucks app fuel c e).client) :
    ∃ n' q' r', Whole ms S ans c n' q' r' (Y.step env lucks app fuel c e) := by
  obtain ⟨hn, hq⟩ := whole_le h
  cases e with
  | call x =>
    obtain ⟨n', r', h'⟩ := whole_other F.toCommon hsh happ h (.call x) he nofun hG
    exact ⟨n', q, r', h'⟩
  | out k =>
    have hto : octetsOut c Y.client.log = bytesOf (fwd ms n) := h.client.1.wrote
    have hbuf : Y.server = ⟨Y.server.buffer, ⟨S q, (answers ans q).map fun x => (.int ((x.1 : Int) + 1), x.2.build), q⟩, false⟩ := by
      have h1 := h.server
      have h2 := h.serverAlive
      cases hs : Y.server
      rw [hs] at h1 h2
      simp only at h1 h2
      rw [h1, h2]
    obtain ⟨q', buf', s', h1, h2, h3, h4⟩ := Pipe.receive (handle := serverHandle env lucks) (decodes_fwd F.toCommon hn)
      (J := fun q x => x = ⟨S q, (answers ans q).map fun x => (.int ((x.1 : Int) + 1), x.2.build), q⟩)
      (fun q s x hx hp => by
        have hlt : q < n := by
          have := (List.getElem?_eq_some_iff.mp hx).1
          rwa [fwd, upto_length hn] at this
        have hm := List.getElem?_eq_getElem (show q < ms.length by omega)
        rw [fwd, upto_get hn hlt hm] at hx
        rw [← Option.some.inj hx, hp]
        have hserve := F.serve q _ hm ((q : Int) + 1) none (idRange_succ F.toCommon (by omega)) rfl
        simp only [serverHandle, hserve]
        refine ⟨trivial, ?_⟩
        simp only [answers, List.map_append, List.map_map, Function.comp_def]) h.pf rfl k
    refine ⟨n, q', r, ?_⟩
    have hstep : Y.step env lucks app fuel c (.out k) =
        { Y with server := ⟨buf', s', false⟩, arrived := min (Y.arrived + k) (bytesOf (fwd ms n)).length } := by
      simp only [Sys.step, hto]
      rw [hbuf, h2]
    rw [hstep]
    have hq' : q' ≤ ms.length := by
      have := h4.le
      rw [fwd, upto_length hn] at this
      omega
    obtain ⟨M, hM, hD⟩ := bck_grow F.toCommon h1 hq'
    refine ⟨h.alive, rfl, h4, ?_, h3, h.client⟩
    rw [hM]
    exact h.pb.grow hD
  | back k =>
    obtain ⟨n', r', h'⟩ := whole_other F.toCommon hsh happ h (.back k) he nofun hG
    exact ⟨n', q, r', h'⟩

omit F in
theorem dataReceived_within {app : App} {fuel c : Nat} (d : Conn World) (b : Bytes)
    (h : Within ms c (dataReceived (Session.clientHandle app fuel c) d b).st) : Within ms c d.st := by
  unfold dataReceived at h
  split at h
  · exact h
  · exact pump_guard (G := Within ms c) within_handle _ { d with buffer := d.buffer ++ b } (Nat.le_refl _) h

omit F in
theorem step_within {app : App} {fuel c : Nat} {Y : Sys} {e : Event} (h : Within ms c (Y.step env lucks app fuel c e).client) :
    Within ms c Y.client := by
  cases e with
  | call x =>
    obtain ⟨l, hl, -⟩ := Client.call_log app fuel Y.client x
    exact h.back hl
  | out k => exact h
  | back k => exact dataReceived_within ⟨Y.buffer, Y.client, Y.dead⟩ _ h

omit F in
theorem run_within {app : App} {fuel c : Nat} {Y : Sys} {es : List Event} (h : Within ms c (Y.run env lucks app fuel c es).client) :
    Within ms c Y.client := by
  induction es generalizing Y with
  | nil => exact h
  | cons e es ih => exact step_within (ih h)

theorem whole_run (hsh : ∀ k m, ms[k]? = some m → Shape m.op.build (ans k)) {app : App} {fuel c n q r : Nat} {Y : Sys}
    (happ : Collecting c app) (h : Whole ms S ans c n q r Y) (es : List Event) (he : ∀ x, .call x ∈ es → Requesting c x)
    (hG : Within ms c (Y.run env lucks app fuel c es).client) :
    ∃ n' q' r', Whole ms S ans c n' q' r' (Y.run env lucks app fuel c es) := by
  induction es generalizing Y n q r with
  | nil => exact ⟨n, q, r, h⟩
  | cons e es ih =>
    obtain ⟨n', q', r', h'⟩ := whole_step F hsh happ h e (fun x hx => he x (by rw [hx]; exact List.mem_cons_self)) (run_within (es := es) hG)
    exact ih h' (fun x hx => he x (List.mem_cons_of_mem _ hx)) hG

end

/-! ### What everybody has been told -/

/-- The answers to a request. -/
theorem answers_to {ans : Nat → List Op} {N r k : Nat} :
    answersTo ((k : Int) + 1) (((answers ans N).take r).map fun x => (.int ((x.1 : Int) + 1), x.2.build)) =
      (((answers ans N).take r).filter fun x => x.1 == k).map fun x => x.2.build := by
  unfold answersTo
  rw [List.filter_map, List.map_map]
  congr 1
  apply List.filter_congr
  intro x _
  simp only [Function.comp, PyVal.int.injEq]
  rw [Bool.eq_iff_iff]
  simp only [decide_eq_true_eq, beq_iff_eq]
  omega

/-- What somebody is told. -/
theorem tell_answer {c : Nat} {p : Pending} {op o : Obj} (hw : Wants p op) : Client.Answer [] c p o none [tell p o] := by
  unfold tell
  cases hh : p.handler with
  | true => exact .handler hh
  | false =>
    have hc : ¬ Client.Cancelled [] p.d := by simp [Client.Cancelled]
    cases hch : p.chain with
    | plain =>
      cases hr : p.returnControls with
      | true => exact .responseControls hh hc hch hr
      | false => exact .response hh hc hch hr
    | startTLS => exact absurd hch hw.chain
    | bind =>
      show Client.Answer [] c p o none [.fired p.d (Verif.Client.bindOutcome o)]
      unfold Verif.Client.bindOutcome
      split
      · rename_i tag code mdn msg creds
        split
        · rename_i h0
          exact .bound mdn creds hh hc hch ⟨tag, msg, by rw [h0]⟩
        · rename_i h0
          refine .bindFailed hh hc hch ?_
          rintro mdn' creds' ⟨t, m, he⟩
          cases he
          exact h0 rfl
      · rename_i h0
        refine .bindFailed hh hc hch ?_
        rintro mdn' creds' ⟨t, m, he⟩
        exact h0 _ _ _ _ _ he

theorem each_map {α β : Type} {R : α → β → Prop} {f : α → β} (h : ∀ a, R a (f a)) (l : List α) : Each R l (l.map f) := by
  induction l with
  | nil => exact .nil
  | cons a l ih => exact .cons (h a) ih

/-- What has been told so far. -/
theorem told_prefix {ms : List Msg} {ans : Nat → List Op} {c n r : Nat} {w : World} (h : Answered ms ans c n r w) {id : Int} {p : Pending}
    {op : Obj} (hx : (id, p, op) ∈ asked c w.log) :
    ∃ rs, rs <+: answersTo id ((answers ans ms.length).map fun x => (.int ((x.1 : Int) + 1), x.2.build)) ∧
      Each (fun r n => Client.Answer [] c p r none [n]) rs (told p.d w.log) := by
  obtain ⟨k, hk⟩ := List.getElem?_of_mem hx
  obtain ⟨m, hm1, rfl, hd', rfl, hwants⟩ := h.1.each k _ hk
  refine ⟨got ms ans r k, ?_, ?_⟩
  · have h1 := answers_to (ans := ans) (N := ms.length) (r := (answers ans ms.length).length) (k := k)
    rw [List.take_length] at h1
    rw [h1, got]
    have hsplit := List.take_append_drop r (answers ans ms.length)
    generalize (answers ans ms.length).take r = x at hsplit ⊢
    rw [← hsplit, List.filter_append, List.map_append]
    exact List.prefix_append ..
  · have := h.1.told k _ hk
    simp only at hd'
    rw [hd', this]
    exact each_map (R := fun r n => Client.Answer [] c p r none [n]) (fun a => tell_answer hwants) _

/-- What has been told in the end. -/
theorem told_all {ms : List Msg} {ans : Nat → List Op} (hsh : ∀ k m, ms[k]? = some m → Shape m.op.build (ans k)) {c n : Nat} {w : World}
    (h : Answered ms ans c n (answers ans ms.length).length w) {id : Int} {p : Pending} {op : Obj} (hx : (id, p, op) ∈ asked c w.log) :
    Each (fun r n => Client.Answer [] c p r none [n]) (answersTo id ((answers ans ms.length).map fun x => (.int ((x.1 : Int) + 1), x.2.build)))
        (told p.d w.log) ∧
      (answersTo id ((answers ans ms.length).map fun x => (.int ((x.1 : Int) + 1), x.2.build)) ≠ [] → (w.conns c).onwire.lookup id = none) := by
  obtain ⟨k, hk⟩ := List.getElem?_of_mem hx
  obtain ⟨m, hm1, rfl, hd', rfl, hwants⟩ := h.1.each k _ hk
  have h1 := answers_to (ans := ans) (N := ms.length) (r := (answers ans ms.length).length) (k := k)
  rw [List.take_length] at h1
  have h2 : got ms ans (answers ans ms.length).length k =
      answersTo ((k : Int) + 1) ((answers ans ms.length).map fun x => (.int ((x.1 : Int) + 1), x.2.build)) := by
    rw [h1, got, List.take_length]
  rw [← h2]
  constructor
  · have := h.1.told k _ hk
    simp only at hd'
    rw [hd', this]
    exact each_map (R := fun r n => Client.Answer [] c p r none [n]) (fun a => tell_answer hwants) _
  · intro hne
    have hwire := h.1.wire k _ hk
    rw [hwire]
    have hfin : fin ms ans (answers ans ms.length).length k = true := by
      rw [h2, h1] at hne
      have hS := hsh k m hm1
      unfold fin
      rw [List.take_length, List.any_eq_true]
      have hkl : k < ms.length := (List.getElem?_eq_some_iff.mp hm1).1
      have hin : ∀ o ∈ ans k, (k, o) ∈ answers ans ms.length := by
        intro o ho
        obtain ⟨M, hM⟩ := ProxySession.answers_prefix (ans := ans) (show k + 1 ≤ ms.length by omega)
        rw [hM, answers]
        exact List.mem_append_left _ (List.mem_append_right _ (List.mem_map.mpr ⟨o, ho, rfl⟩))
      have hne' : ans k ≠ [] := by
        intro h0
        refine hne ?_
        rw [List.map_eq_nil_iff, List.filter_eq_nil_iff]
        intro y hy hyk
        have := (answers_mem hy).2
        rw [show y.1 = k by simpa using hyk, h0] at this
        cases this
      cases hl : (ans k).getLast? with
      | none => exact absurd (List.getLast?_eq_none_iff.mp hl) hne'
      | some o =>
        refine ⟨(k, o), hin o (List.mem_of_getLast? hl), ?_⟩
        simp only [beq_self_eq_true, Bool.true_and, ends, searching, hm1]
        cases hse : isSearch m.op.build with
        | false => rfl
        | true => simpa using hS.last o hl hse
    rw [hfin]
    rfl

end Verif.Concurrent
