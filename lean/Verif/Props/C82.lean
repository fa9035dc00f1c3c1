import Verif.Model.Checker
import Verif.Props.C16
import Verif.Props.C42
import Verif.Props.C75
/-
C82  Logging in by name and password lets in exactly who knows the password of the one entry of that name.

`granted_iff`: whatever the server is, one entry was found, and the server accepted the password for it.  `logs_in_partial`:
with the library's own server, all the way over the network and back, for the default search and names without filter syntax.

It is false of other names (`star`, C16), of names given as octets (`octets_name`), and with servers that keep to size limits:
there the first of several entries of the name is let in (`ambiguous`); an empty password is sent to the server, which may take
it for an anonymous bind (`empty_password`, RFC 4513 5.1.2).  More than one entry is an AssertionError.
-/
namespace Verif.C82
open Verif.Ldap Verif.Spec Verif.Server Verif.Tree Verif.Session Verif.Checker

/-- Whom the checker lets in. -/
theorem granted_iff (cfg : Config) (name : PyStr) (search : Dn.Dn → FilterText.Filter → ClientSearch.Running)
    (bind : Syntax.St → Client.Outcome) (e : Syntax.St) :
    login cfg name search bind = .granted e ↔
      ∃ base f m c, cfg.base = some base ∧ name.toBytes ≠ [] ∧ FilterText.parseFilter (searchText cfg name) = .ok f ∧
        (search base f).outcome = some .finished ∧ (search base f).entries = [e] ∧ bind e = .bound m c := by
  have htrap : ∀ code, trap code ≠ .granted e := by
    intro code h; unfold trap at h; split at h <;> cases h
  have hbound : ∀ x o, bound x o = .granted e ↔ x = e ∧ ∃ m c, o = .bound m c := by
    intro x o
    unfold bound
    split
    · rename_i m c
      exact ⟨fun h => by cases h; exact ⟨rfl, m, c, rfl⟩, fun ⟨h, _⟩ => by rw [h]⟩
    · exact ⟨fun h => absurd h (htrap _), fun ⟨_, _, _, h⟩ => by cases h⟩
    · exact ⟨nofun, fun ⟨_, _, _, h⟩ => by cases h⟩
    · rename_i h1 _ _
      exact ⟨nofun, fun ⟨_, m, c, h⟩ => absurd h (h1 m c)⟩
  constructor
  · intro h
    unfold login request at h
    cases hb : cfg.base with
    | none => simp only [hb] at h; cases h
    | some base =>
      simp only [hb] at h
      by_cases hn : name.toBytes = []
      · simp only [hn, if_true] at h; cases h
      · simp only [if_neg hn] at h
        cases hp : FilterText.parseFilter (searchText cfg name) with
        | error x => simp only [hp] at h; cases h
        | ok f =>
          simp only [hp] at h
          unfold found at h
          cases ho : (search base f).outcome with
          | none => simp only [ho] at h; cases h
          | some o =>
            simp only [ho] at h
            cases o with
            | lost => cases h
            | failed c m => exact absurd h (htrap c)
            | finished =>
              simp only at h
              match he : (search base f).entries with
              | [] => simp only [he] at h; cases h
              | [x] =>
                simp only [he] at h
                obtain ⟨rfl, m, c, hm⟩ := (hbound x _).mp h
                exact ⟨base, f, m, c, rfl, hn, rfl, ho, he, hm⟩
              | x :: y :: l => simp only [he] at h; cases h
  · rintro ⟨base, f, m, c, h1, h2, h3, h4, h5, h6⟩
    unfold login request found
    simp only [h1, if_neg h2, h3, h4, h5, h6, bound]

/-- Whom it turns away.  All else is not the user's fault: other LDAP errors, a lost connection, more than one entry. -/
theorem unauthorized_iff (cfg : Config) (name : PyStr) (search : Dn.Dn → FilterText.Filter → ClientSearch.Running)
    (bind : Syntax.St → Client.Outcome) :
    login cfg name search bind = .unauthorized ↔
      cfg.base = none ∨ name.toBytes = [] ∨ (∃ x, FilterText.parseFilter (searchText cfg name) = .error x) ∨
      ∃ base f, cfg.base = some base ∧ FilterText.parseFilter (searchText cfg name) = .ok f ∧
        ((∃ m, (search base f).outcome = some (.failed (.int 49) m) ∨ (search base f).outcome = some (.failed (.int 53) m)) ∨
         ((search base f).outcome = some .finished ∧ (search base f).entries = []) ∨
         ∃ e t m x y, (search base f).outcome = some .finished ∧ (search base f).entries = [e] ∧
           (bind e = .failed (.result .bindResponse t (.int 49) m x y) ∨ bind e = .failed (.result .bindResponse t (.int 53) m x y))) := by
  have htrap : ∀ code, trap code = .unauthorized ↔ code = .int 49 ∨ code = .int 53 := by
    intro code; unfold trap; split <;> simp_all
  unfold login request
  cases hb : cfg.base with
  | none => simp
  | some base =>
    by_cases hn : name.toBytes = []
    · simp [hn]
    · cases hp : FilterText.parseFilter (searchText cfg name) with
      | error x => simp [hn]
      | ok f =>
        simp only [hn, if_false, reduceCtorEq, false_or, Option.some.injEq, Except.ok.injEq, exists_false, found]
        have hex : ∀ P : Dn.Dn → FilterText.Filter → Prop, (∃ b g, base = b ∧ f = g ∧ P b g) ↔ P base f :=
          fun P => ⟨fun ⟨_, _, rfl, rfl, h⟩ => h, fun h => ⟨_, _, rfl, rfl, h⟩⟩
        rw [hex]
        cases ho : (search base f).outcome with
        | none => simp
        | some o =>
          cases o with
          | lost => simp
          | failed c m =>
            simp only [htrap, Option.some.injEq, ClientSearch.Outcome.failed.injEq, reduceCtorEq, false_and, and_false, exists_false, or_false]
            exact ⟨fun h => ⟨m, h.imp (⟨·, rfl⟩) (⟨·, rfl⟩)⟩, fun ⟨_, h⟩ => h.imp And.left And.left⟩
          | finished =>
            match he : (search base f).entries with
            | [] => simp
            | x :: y :: l => simp
            | [x] =>
              simp only [reduceCtorEq, false_and, or_self, exists_false, false_or, Option.some.injEq, true_and, List.cons.injEq, and_true]
              have hex' : ∀ P : Syntax.St → Prop, (∃ e, x = e ∧ P e) ↔ P x := fun P => ⟨fun ⟨_, h1, h2⟩ => h1 ▸ h2, fun h => ⟨x, rfl, h⟩⟩
              simp only [and_false, false_or, exists_and_left, hex']
              unfold bound
              split
              · simp_all
              · rename_i t code m e y h
                rw [htrap, h]
                simp only [Client.Outcome.failed.injEq, Obj.result.injEq, true_and]
                constructor
                · rintro (rfl | rfl)
                  · exact ⟨_, _, _, _, .inl ⟨rfl, rfl, rfl, rfl, rfl⟩⟩
                  · exact ⟨_, _, _, _, .inr ⟨rfl, rfl, rfl, rfl, rfl⟩⟩
                · rintro ⟨_, _, _, _, ⟨_, h, _⟩ | ⟨_, h, _⟩⟩
                  · exact .inl h
                  · exact .inr h
              · rename_i op hne h
                rw [h]
                exact ⟨nofun, fun ⟨_, _, _, _, h'⟩ => by
                  rcases h' with h' | h' <;> (cases h'; exact absurd rfl (hne _ _ _ _ _))⟩
              · rename_i h1 h2 h3
                exact ⟨nofun, fun ⟨_, _, _, _, h'⟩ => by rcases h' with h' | h' <;> exact absurd h' (h2 _ _ _ _ _)⟩

/-! ### Binding over the network -/

theorem bind_encodes {env : Env} {luck : Luck} {st : State} {id : PyVal} {t : UInt8} {v dn : PyVal} {a : Auth}
    {cs : Option (List (PyVal × PyVal × PyVal))} {s : Served} (h : serve env luck st (.message id (.bind t v dn a) cs) = some s) :
    ∀ x ∈ s.sent, encodes x.1 x.2 = true := by
  have hfinal : ∀ r, ∀ x ∈ final id r, encodes x.1 x.2 = true := by
    intro r x hx
    unfold final at hx
    split at hx
    · rename_i h'; rw [List.mem_singleton.mp hx]; exact h'
    · cases hx
  simp only [serve, isRequest, if_true] at h
  split at h
  · cases h; intro x hx; cases hx
  · cases h
    intro x hx
    simp only [call] at hx
    split at hx <;> simp only [List.map_nil, List.nil_append] at hx <;> exact hfinal _ x hx

/-- A simple bind at the library's own server. -/
theorem bind_served (env : Env) (luck : Luck) (st : State) (id : Int) (hid : 0 < id ∧ id < 2 ^ 31) (dn pw : Bytes)
    (htext : ∀ e, Fit (luck.text e)) (hdns : ∀ n ∈ st.heap, Fit (Utf8.encode n.entry.dn.text)) :
    ∃ s code m e, serve env luck st (.message (.int id) (.bind 0x40 (.int 3) (.bytes dn) (.simple (.bytes pw))) none) = some s ∧
      s.sent = [(.int id, (Op.bindResponse code m e none).build)] ∧ encodes (.int id) (Op.bindResponse code m e none).build = true ∧
      s.state.heap = st.heap ∧
      ((code = 0 ∧ C42.Verified env st (.bind 0x40 (.int 3) (.bytes dn) (.simple (.bytes pw))) none s.state.bound) ∨
       (code ≠ 0 ∧ s.state.bound = st.bound ∧ ∀ u, ¬ C42.Verified env st (.bind 0x40 (.int 3) (.bytes dn) (.simple (.bytes pw))) none u)) ∧
      (∀ d i n, dn ≠ [] → readDn env.U (.bytes dn) = .ok d → lookup env.U st.heap 0 d = .ok i → st.heap[i]? = some n →
        Password.tryBind env.U env.sha1 env.passwordTextFirst n.entry (.bytes pw) = .ok false → code = 49) := by
  have hf : Fits luck st (.bind 0x40 (.int 3) (.bytes dn) (.simple (.bytes pw))) none := by
    refine ⟨htext, hdns, nofun, nofun, fun t v d a h => ?_⟩
    cases h
    show (decimal 3).length < _
    decide +kernel
  obtain ⟨s, code, m, e, h1, h2, h3, h4⟩ := C42.bind_outcome env luck st id 0x40 (.int 3) (.bytes dn) (.simple (.bytes pw)) none hid hf
  have henc := bind_encodes h1 (.int id, (Op.bindResponse code m e none).build) (by rw [h2]; exact List.mem_cons_self)
  refine ⟨s, code, m, e, h1, h2, henc, h3, h4, fun d i n hne hd hl hn hpw => ?_⟩
  have hb : handleBind env st (.int 3) (.bytes dn) (.simple (.bytes pw)) none = .error (.ldap 49 .none) := by
    have hne' : PyVal.bytes dn ≠ .bytes [] := fun h => hne (by cases h; rfl)
    simp [handleBind, checkVersion, checkControls, hne', hd, lift, hl, authBytes, toBytes, entryAt, hn, hpw, bind, Except.bind]
  have hcall : call env luck st (.int id) (.bind 0x40 (.int 3) (.bytes dn) (.simple (.bytes pw))) none = ⟨st, [], .error (.ldap 49 .none)⟩ := by
    simp [call, hb]
  have hp := post_bind (env := env) hf
  rw [hb] at hp
  obtain ⟨s', op, g1, _, g3, g4, g5⟩ := C41.serve_error hid .bind hcall hp
  rw [h1] at g1
  cases g1
  rw [h2] at g3
  cases g4
  simp only [Op.build, List.cons.injEq, Prod.mk.injEq, Obj.result.injEq, true_and, and_true, PyVal.int.injEq] at g3
  rw [g3.1]
  exact Option.some.inj g5

/-- A simple bind through the library's own client and server: the Deferred fires with success exactly if the server lets the
user in. -/
theorem bind_exchanged (env : Env) (luck : Luck) (st : State) (app : Client.App) (fuel c : Nat) (w : Client.World)
    (hconn : (w.conns c).connected = true) (hid : 0 < w.nextId ∧ w.nextId < 2 ^ 31) (hfree : (w.conns c).onwire.lookup w.nextId = none)
    (dn pw : Bytes) (hsize : (Msg.mk w.nextId (.bindSimple 3 dn pw) none).size < lengthLimit)
    (htext : ∀ e, Fit (luck.text e)) (hdns : ∀ n ∈ st.heap, Fit (Utf8.encode n.entry.dn.text)) :
    ∃ st' o, Exchanged env luck app fuel c w (.bind c (.bytes dn) (.bytes pw)) st st' o ∧ st'.heap = st.heap ∧
      (((∃ m x, o = .bound m x) ∧ C42.Verified env st (.bind 0x40 (.int 3) (.bytes dn) (.simple (.bytes pw))) none st'.bound) ∨
       (∃ t code m e x, o = .failed (.result .bindResponse t (.int code) m e x) ∧ code ≠ 0 ∧ st'.bound = st.bound ∧
          (∀ u, ¬ C42.Verified env st (.bind 0x40 (.int 3) (.bytes dn) (.simple (.bytes pw))) none u) ∧
          ∀ d i n, dn ≠ [] → readDn env.U (.bytes dn) = .ok d → lookup env.U st.heap 0 d = .ok i → st.heap[i]? = some n →
            Password.tryBind env.U env.sha1 env.passwordTextFirst n.entry (.bytes pw) = .ok false → code = 49)) := by
  obtain ⟨s, code, m, e, h1, h2, henc, h3, h4, h5⟩ := bind_served env luck st w.nextId hid dn pw htext hdns
  have hex := exchange env luck st app fuel c w hconn (by omega) hfree (.bind c (.bytes dn) (.bytes pw)) .bind (fun h => by cases h)
    (.bindSimple 3 dn pw) (.bindResponse code m e none) trivial (by simp only [Client.call]; rfl) rfl hsize s h1 h2 (by intro h; cases h) rfl henc
  refine ⟨s.state, _, hex, h3, ?_⟩
  rcases h4 with ⟨rfl, hv⟩ | ⟨hc, hb, hn⟩
  · exact .inl ⟨⟨_, _, rfl⟩, hv⟩
  · exact .inr ⟨_, code, _, _, _, if_neg fun h => hc (by cases h; rfl), hc, hb, hn, h5⟩

/-! ### The way from the name to the entry -/

/-- An entry with this name: its `cn` or its `uid` has it as a value, up to case. -/
def Called (U : Unicode) (e : Entry) (name : Str) : Prop :=
  ∃ a ∈ [C16.cn, C16.uid], ∃ vs v, HasAttr e (.text a) vs ∧ v ∈ vs ∧ SameValue U v (.bytes (Utf8.encode name))

/-- A person below the node `j`. -/
def Person (U : Unicode) (h : Heap) (j : Nat) (name : Str) (k : Nat) : Prop := Below h j k ∧ ∃ n, h[k]? = some n ∧ Called U n.entry name

/-- The search for a name, as it arrives at the server. -/
def wireFilter (name : Str) : Filter :=
  .or [.equal (Utf8.encode C16.cn) (Utf8.encode name), .equal (Utf8.encode C16.uid) (Utf8.encode name)]

theorem wireFilter_eq (name : Str) : (C16.byName name).obj = (wireFilter name).build := by
  simp [C16.byName, wireFilter, FilterText.Filter.obj, FilterText.Filter.objs, Filter.build, Filter.buildAll, FilterText.stringObj, octet]

theorem testable (e : Entry) (name : Str) : Testable e (wireFilter name).sem := by
  simp only [wireFilter, Filter.sem, Filter.sems]
  refine .or _ fun f hf => ?_
  simp only [List.mem_cons, List.not_mem_nil, or_false] at hf
  rcases hf with rfl | rfl
  · exact .equality _ _ (by decide +kernel) ⟨name, rfl⟩
  · exact .equality _ _ (by decide +kernel) ⟨name, rfl⟩

theorem holds_called {U : Unicode} {e : Entry} {name : Str} : Holds U e (wireFilter name).sem true ↔ Called U e name := by
  simp only [wireFilter, Filter.sem, Filter.sems]
  constructor
  · intro h
    cases h with
    | or_yes _ f hf h =>
      simp only [List.mem_cons, List.not_mem_nil, or_false] at hf
      rcases hf with rfl | rfl
      · cases h with | equality_yes _ _ vs v h1 h2 h3 => exact ⟨C16.cn, by simp, vs, v, h1, h2, h3⟩
      · cases h with | equality_yes _ _ vs v h1 h2 h3 => exact ⟨C16.uid, by simp, vs, v, h1, h2, h3⟩
  · rintro ⟨a, ha, vs, v, h1, h2, h3⟩
    simp only [List.mem_cons, List.not_mem_nil, or_false] at ha
    rcases ha with rfl | rfl
    · exact .or_yes _ _ List.mem_cons_self (.equality_yes _ _ vs v h1 h2 h3)
    · exact .or_yes _ _ (List.mem_cons_of_mem _ List.mem_cons_self) (.equality_yes _ _ vs v h1 h2 h3)

/-- What the checker makes of a search that brings the entries of the nodes `ks`. -/
theorem found_nodes {R : Nat → Syntax.St → Prop} {r : ClientSearch.Running} {ks : List Nat} (ho : r.outcome = some .finished)
    (he : Each R ks r.entries) (hn : ks.Nodup) :
    ((∀ k, k ∉ ks) → found r = .error .unauthorized) ∧
    (∀ k k', k ∈ ks → k' ∈ ks → k ≠ k' → found r = .error .assertion) ∧
    (∀ k, k ∈ ks → (∀ k' ∈ ks, k' = k) → ∃ e, found r = .ok e ∧ R k e) := by
  unfold found
  simp only [ho]
  generalize r.entries = es at he
  cases he with
  | nil => exact ⟨fun _ => rfl, nofun, nofun⟩
  | @cons a b as bs h1 h2 =>
    refine ⟨fun h => absurd List.mem_cons_self (h a), fun k k' hk hk' hne => ?_, fun k hk hu => ?_⟩
    · cases h2 with
      | nil => exact absurd ((List.mem_singleton.mp hk).trans (List.mem_singleton.mp hk').symm) hne
      | cons _ _ => rfl
    · cases h2 with
      | nil => exact ⟨b, rfl, by rw [List.mem_singleton.mp hk]; exact h1⟩
      | @cons a' b' as' bs' h3 _ =>
        have e1 := hu a List.mem_cons_self
        have e2 := hu a' (List.mem_cons_of_mem _ List.mem_cons_self)
        rw [List.nodup_cons] at hn
        exact absurd (by rw [e1, ← e2]; exact List.mem_cons_self) hn.1

/-- What `logs_in_partial` promises about the second step: the password decides. -/
def Decides (env : Env) (luck : Luck) (st : State) (k : Nat) (n : Node) (e : Syntax.St) : Prop :=
  ∀ (app : Client.App) (fuel c : Nat) (w : Client.World) (pw : PyStr), (w.conns c).connected = true → 0 < w.nextId ∧ w.nextId < 2 ^ 31 →
    (w.conns c).onwire.lookup w.nextId = none → (Msg.mk w.nextId (.bindSimple 3 (Utf8.encode e.dn.text) pw.toBytes) none).size < lengthLimit →
    ∃ st' o, Exchanged env luck app fuel c w (bindCall c e pw) st st' o ∧ st'.heap = st.heap ∧
      ((bound e o = .granted e ∧ st'.bound = some k ∧
          Password.tryBind env.U env.sha1 env.passwordTextFirst n.entry (.bytes pw.toBytes) = .ok true) ∨
       ((∀ x, bound e o ≠ .granted x) ∧ st'.bound = st.bound ∧
          Password.tryBind env.U env.sha1 env.passwordTextFirst n.entry (.bytes pw.toBytes) ≠ .ok true)) ∧
      (Password.tryBind env.U env.sha1 env.passwordTextFirst n.entry (.bytes pw.toBytes) = .ok false → bound e o = .unauthorized)

theorem decides (env : Env) (luck : Luck) (st : State) (hb : C67.Built env st.heap) (hdist : Distinct env.U st.heap)
    (htext : ∀ e, Fit (luck.text e)) (hdns : ∀ n ∈ st.heap, Fit (Utf8.encode n.entry.dn.text)) (k : Nat) (n : Node)
    (hk : Below st.heap 0 k) (hn : st.heap[k]? = some n) (ht : Textual n.entry.dn) (hne : n.entry.dn ≠ []) (e : Syntax.St)
    (he : e.dn = n.entry.dn) : Decides env luck st k n e := by
  intro app fuel c w pw hconn hid hfree hsize
  have hv := hb.inv.1
  have hpos : 0 < st.heap.length := by
    obtain ⟨m, hm, _⟩ := hb.inv.2
    exact (List.getElem?_eq_some_iff.mp hm).1
  have hlook : lookup env.U st.heap 0 n.entry.dn = .ok k := (lookup_iff hv hdist hpos _ _).mpr ⟨hk, by rw [dnOf_eq hn]⟩
  obtain ⟨st', o, h1, h2, h3⟩ := bind_exchanged env luck st app fuel c w hconn hid hfree (Utf8.encode e.dn.text) pw.toBytes hsize htext hdns
  refine ⟨st', o, h1, h2, ?_⟩
  have hempty : Utf8.encode e.dn.text ≠ [] := by rw [he]; exact C75.text_ne ht hne
  have hver : ∀ u, C42.Verified env st (.bind 0x40 (.int 3) (.bytes (Utf8.encode e.dn.text)) (.simple (.bytes pw.toBytes))) none u ↔
      u = some k ∧ Password.tryBind env.U env.sha1 env.passwordTextFirst n.entry (.bytes pw.toBytes) = .ok true := by
    intro u
    constructor
    · intro h
      generalize hdn : Utf8.encode e.dn.text = b at h hempty
      cases h with
      | anonymous _ => exact absurd rfl hempty
      | user _ _ hs hp hl hi ha hpw =>
        rw [← hdn, Utf8.decode_encode] at hs
        cases hs
        rw [he, C75.parse_text ht] at hp
        cases hp
        rw [hlook] at hl
        cases hl
        rw [hn] at hi
        cases hi
        cases ha
        exact ⟨rfl, hpw⟩
    · rintro ⟨rfl, hpw⟩
      exact .user nofun hempty (Utf8.decode_encode _) (by rw [he]; exact C75.parse_text ht) hlook hn (.simple _) hpw
  rcases h3 with ⟨⟨m, x, rfl⟩, hvf⟩ | ⟨t, code, m, y, x, rfl, hc, hb', hvf, h49⟩
  · obtain ⟨e1, e2⟩ := (hver _).mp hvf
    exact ⟨.inl ⟨rfl, e1, e2⟩, fun h => by rw [e2] at h; cases h⟩
  · refine ⟨.inr ⟨fun z => ?_, hb', fun h => hvf (some k) ((hver _).mpr ⟨rfl, h⟩)⟩, fun h => ?_⟩
    · simp only [bound, trap]
      split <;> exact nofun
    · have hread : readDn env.U (.bytes (Utf8.encode e.dn.text)) = .ok n.entry.dn := by
        simp only [readDn, Utf8.decode_encode, bind, Except.bind, he]
        exact C75.parse_text ht
      rw [h49 _ _ _ hempty hread hlook hn h]
      simp [bound, trap]

/-- **C82** The program starts a login with the default search.  The client looks for the name; if nobody has it, or more than
one entry, nobody is let in; if one entry has it, its password decides who is let in, and as whom. -/
theorem logs_in_partial (env : Env) (hU : Sane env.U) (luck : Luck) (st : State) (hb : C67.Built env st.heap) (hdist : Distinct env.U st.heap)
    (htext : ∀ e, Fit (luck.text e)) (hdns : ∀ n ∈ st.heap, Fit (Utf8.encode n.entry.dn.text))
    (w : Client.World) (app : Client.App) (fuel c : Nat) (happ : Searches env.U options w.deferreds.length app)
    (hnew : responsesTo w.deferreds.length w.log = []) (hconn : (w.conns c).connected = true) (hid : 0 < w.nextId ∧ w.nextId < 2 ^ 31)
    (hfree : (w.conns c).onwire.lookup w.nextId = none)
    (d : Dn.Dn) (hd : Textual d) (j : Nat) (hj : lookup env.U st.heap 0 d = .ok j)
    (name : Str) (hne : name ≠ []) (ht : '\t' ∉ name) (hp : ∀ c ∈ name, c ∉ FilterText.valueStops)
    (hent : ∀ k n, Below st.heap j k → st.heap[k]? = some n → C67.Sendable n.entry [[]] ∧ Textual n.entry.dn ∧ n.entry.dn ≠ [])
    (hsize : (Msg.mk w.nextId (.search (Utf8.encode d.text) 2 0 1 0 false (wireFilter name) [[]]) none).size < lengthLimit) :
    ∃ f, request ⟨some d, none⟩ (.text name) = .ok (d, f) ∧
    let p : Client.Pending := ⟨w.deferreds.length, true, true, .plain⟩
    let w₁ := Client.call app fuel w (.sendMultiEx c (Checker.searchRequest d f) none true)
    ∃ out, w₁.log = w.log ++ [.made c w.nextId, .sent c w.nextId p (Checker.searchRequest d f), .written c out] ∧
      ∀ segs, segs.flatten = out → ∃ sent back,
        (Conn.feed (serverHandle env luck) (Conn.fresh (st, [])) segs).st = (st, sent) ∧
        (Conn.feed (serverHandle env luck) (Conn.fresh (st, [])) segs).dead = false ∧
        Wires (sent.map fun x => .message x.1 x.2 none) back ∧
        ∀ segs', segs'.flatten = back →
          let s := Conn.feed (clientHandle app fuel c) (Conn.fresh w₁) segs'
          let r := ClientSearch.run env.U options ((responsesTo p.d s.st.log).map .response)
          s.dead = false ∧
          ((∀ k, ¬ Person env.U st.heap j name k) → found r = .error .unauthorized) ∧
          (∀ k k', Person env.U st.heap j name k → Person env.U st.heap j name k' → k ≠ k' → found r = .error .assertion) ∧
          (∀ k n, Person env.U st.heap j name k → (∀ k', Person env.U st.heap j name k' → k' = k) → st.heap[k]? = some n →
            ∃ e, found r = .ok e ∧ e.dn = n.entry.dn ∧ Decides env luck st k n e) := by
  have hv := hb.inv.1
  have hpos : 0 < st.heap.length := by
    obtain ⟨m, hm, _⟩ := hb.inv.2
    exact (List.getElem?_eq_some_iff.mp hm).1
  obtain ⟨h0j, _⟩ := (lookup_iff hv hdist hpos _ _).mp hj
  have hlt : j < st.heap.length := h0j.lt_length hv hpos
  have hparse := C16.plain_name_partial name hne ht hp
  have hreq : request ⟨some d, none⟩ (.text name) = .ok (d, C16.byName name) := by
    have hb' : PyStr.toBytes (.text name) ≠ [] := by
      cases name with
      | nil => exact absurd rfl hne
      | cons x l =>
        intro h
        have : Utf8.decode (Utf8.encode (x :: l)) = .ok (x :: l) := Utf8.decode_encode _
        rw [show Utf8.encode (x :: l) = [] from h] at this
        have h2 : Utf8.decode ([] : Bytes) = .ok [] := by decide +kernel
        rw [h2] at this
        cases this
    simp only [request, if_neg hb', searchText, formatted, hparse]
  refine ⟨_, hreq, ?_⟩
  have hev : ∀ k n, Below st.heap j k → st.heap[k]? = some n →
      ∃ b, Match.eval env.U n.entry (wireFilter name).sem = .ok b ∧ (b = true ↔ Called env.U n.entry name) := by
    intro k n hk hn
    have hwn := (hent k n hk hn).1.named
    obtain ⟨b, h1, h2⟩ := C17.eval_correct_partial env.U hU n.entry hwn _ (testable n.entry name)
    refine ⟨b, h1, ?_⟩
    rw [← holds_called]
    constructor
    · rintro rfl; exact h2
    · intro h; exact (C17.holds_unique _ _ _ h h2).symm
  have hsr : Checker.searchRequest d (C16.byName name) = (Op.search (Utf8.encode d.text) 2 0 1 0 false (wireFilter name) [[]]).build := by
    simp only [Checker.searchRequest, Session.searchRequest, wireFilter_eq, Op.build, boolVal]
  rw [hsr]
  obtain ⟨out, h1, h2⟩ := C75.search env hU luck st hb w app fuel c options (fun _ => rfl) happ hnew hconn hid hfree d hd 2 0 1 0 false
    (wireFilter name) [[]] (by decide +kernel) (fun _ => List.pairwise_singleton _ _) .sub .sub (.inr (by decide)) j hj hlt
    (fun k hk n hn => by obtain ⟨b, h, _⟩ := hev k n hk hn; exact ⟨b, h⟩) (fun k n hk hn => ⟨(hent k n hk hn).1, (hent k n hk hn).2.1⟩) hsize
  refine ⟨out, h1, fun segs hsegs => ?_⟩
  obtain ⟨sent, back, h3, h4, h5, h6⟩ := h2 segs hsegs
  refine ⟨sent, back, h3, h4, h5, fun segs' hsegs' => ?_⟩
  obtain ⟨g1, _, _, g4, ks, g5, g6, g7, _⟩ := h6 segs' hsegs'
  have hks : ∀ k, k ∈ ks ↔ Person env.U st.heap j name k := by
    intro k
    rw [g6]
    constructor
    · rintro ⟨hk, n, hn, hm⟩
      obtain ⟨b, h1, h2⟩ := hev k n hk hn
      rw [hm] at h1; cases h1
      exact ⟨hk, n, hn, h2.mp rfl⟩
    · rintro ⟨hk, n, hn, hm⟩
      obtain ⟨b, h1, h2⟩ := hev k n hk hn
      exact ⟨hk, n, hn, by rw [h1, h2.mpr hm]⟩
  obtain ⟨f1, f2, f3⟩ := found_nodes g4 g5 g7
  refine ⟨g1, fun h => f1 fun k hk => h k ((hks k).mp hk), fun k k' hk hk' hne => f2 k k' ((hks k).mpr hk) ((hks k').mpr hk') hne,
    fun k n hk hu hn => ?_⟩
  obtain ⟨e, he, m, hm, hcopy⟩ := f3 k ((hks k).mpr hk) fun k' hk' => hu k' ((hks k').mp hk')
  rw [hn] at hm
  cases hm
  have hx := hent k n hk.1 hn
  exact ⟨e, he, hcopy.dn, decides env luck st hb hdist htext hdns k n (by obtain ⟨l, hl⟩ := h0j; obtain ⟨m, hm⟩ := hk.1; exact ⟨_, path_append hl hm⟩) hn hx.2.1 hx.2.2 e hcopy.dn⟩

/-! ### Example: a directory of one person -/

def joe : Entry := ⟨[[⟨['u','i','d'], ['j']⟩]], [(.bytes (ascii "CN"), [.bytes (ascii "joe")]), (.bytes (ascii "userPassword"), [.bytes (ascii "x")])]⟩

theorem only (k : Nat) (n : Node) (hn : (single joe)[k]? = some n) : k = 0 ∧ n = ⟨joe, none, []⟩ := by
  match k with
  | 0 => exact ⟨rfl, (Option.some.inj hn).symm⟩
  | k + 1 => simp [single] at hn

theorem joe_called : Person asciiTables (single joe) 0 "Joe".toList 0 :=
  ⟨⟨[], .here 0⟩, _, rfl, C16.cn, List.mem_cons_self, _, _, ⟨_, List.mem_cons_self, by unfold SameName; decide +kernel⟩, List.mem_cons_self, by
    unfold SameValue; decide +kernel⟩

theorem joe_sendable : C67.Sendable joe [[]] := by
  refine ⟨⟨?_, ?_⟩, ?_, ⟨by unfold Fit; decide +kernel, by decide, ?_, by decide⟩⟩
  · intro k vs hm
    have : ∀ p ∈ joe.attrs, p.1.Ascii := by decide +kernel
    exact this _ hm
  · unfold SameName; decide +kernel
  · intro k vs hm
    have : ∀ p ∈ joe.attrs, ∀ v ∈ p.2, v.isText = false := by decide +kernel
    exact .inr (this _ hm)
  · intro k vs hm
    have : ∀ p ∈ joe.attrs, p.1.toBytes.length < 2 ^ 32 ∧ p.2.length < 2 ^ 32 ∧ ∀ v ∈ p.2, v.toBytes.length < 2 ^ 32 := by decide +kernel
    exact this _ hm

theorem joe_textual : Textual joe.dn := ⟨by decide, by decide⟩

theorem joe_distinct : Distinct asciiTables (single joe) := by
  rintro i k k' c c' ⟨n, hn, hc⟩ _ _
  rw [(only i n hn).2] at hc
  cases hc

theorem fit_luck : ∀ e, Fit (C40.luck.text e) := fun e => by simp [C40.luck, Fit]

theorem fit_joe : ∀ n ∈ single joe, Fit (Utf8.encode n.entry.dn.text) := by
  intro n hn
  rw [List.mem_singleton.mp hn]
  unfold Fit; decide +kernel

/-- `Joe`. -/
example := logs_in_partial C40.env asciiTables_sane C40.luck ⟨single joe, none⟩ (.start joe) joe_distinct fit_luck fit_joe
  C75.world (C75.program asciiTables options 0) 0 0
  (C75.program_searches _ _ _) rfl (by decide +kernel) (by decide +kernel) (by decide +kernel) joe.dn joe_textual 0 (by decide +kernel)
  "Joe".toList (by decide) (by decide) (by decide) (fun k n _ hn => by
    rw [(only k n hn).2]; exact ⟨joe_sendable, joe_textual, by decide⟩) (Nat.lt_trans (by decide +kernel) two64_lt_limit)

/-- The right password, and a wrong one. -/
example : Password.tryBind C40.env.U C40.env.sha1 C40.env.passwordTextFirst joe (.bytes (ascii "x")) = .ok true ∧
    Password.tryBind C40.env.U C40.env.sha1 C40.env.passwordTextFirst joe (.bytes (ascii "y")) = .ok false := by decide +kernel

/-! ### Where the claim fails -/

/-- What a server sends that keeps to the size limit of one entry, and has more. -/
def limited : ClientSearch.Running :=
  ClientSearch.run asciiTables options [.response (.searchEntry 0x44 (.bytes (ascii "cn=joe,dc=a")) []),
    .response (.result .searchResultDone 0x45 (.int 4) (.bytes []) (.bytes []) .none)]

/-- Several entries have the name, and the password of the first one lets in. -/
theorem ambiguous : ∃ e : Syntax.St, ∀ d : Dn.Dn, login ⟨some d, none⟩ (.text ['j','o','e']) (fun _ _ => limited) (fun _ => .bound (.bytes []) .none) =
    .granted e := by
  refine ⟨Syntax.init asciiTables [[⟨['c','n'], ['j','o','e']⟩], [⟨['d','c'], ['a']⟩]] [] false, fun d => ?_⟩
  refine (granted_iff ..).mpr ⟨d, C16.byName ['j','o','e'], _, _, rfl, by decide +kernel,
    C16.plain_name_partial _ (by decide) (by decide) (by decide), by decide +kernel, by decide +kernel, rfl⟩

/-- An empty password is sent to the server as it is; a success, which is the anonymous identity, is taken for the user's. -/
theorem empty_password (c : Nat) (e : Syntax.St) (m x : PyVal) :
    bindCall c e (.text []) = .bind c (.bytes (Utf8.encode e.dn.text)) (.bytes []) ∧ bound e (.bound m x) = .granted e := ⟨rfl, rfl⟩

/-- A name given as octets, as twisted does, is looked for in the form in which Python shows octets. -/
theorem octets_name (d : Dn.Dn) : request ⟨some d, none⟩ (.bytes (ascii "joe")) = .ok (d, C16.byName "b'joe'".toList) := by
  have h : searchText ⟨some d, none⟩ (.bytes (ascii "joe")) = Identity.defaultSearch "b'joe'".toList := by
    show Identity.defaultSearch (reprOctets (ascii "joe")) = _
    rw [show reprOctets (ascii "joe") = "b'joe'".toList by decide +kernel]
  simp only [request, h, C16.plain_name_partial "b'joe'".toList (by decide) (by decide) (by decide)]
  rw [if_neg (by decide +kernel)]

/-- The name `*` is whoever has a name, if that is one entry. -/
theorem star (d : Dn.Dn) : request ⟨some d, none⟩ (.text ['*']) = .ok (d, .or [.present C16.cn, .present C16.uid]) := by
  have h : searchText ⟨some d, none⟩ (.text ['*']) = Identity.defaultSearch ['*'] := rfl
  simp only [request, h, C16.star_matches_all.1]
  rw [if_neg (by decide +kernel)]

end Verif.C82
