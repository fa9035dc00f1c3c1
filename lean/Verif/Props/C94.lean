import Verif.Props.C76
import Verif.Props.C89
import Verif.Props.C93
/-
C94  What a program commits is what it finds when it searches again.

`read_back`: a program searches for an entry, edits what it has found, commits, and searches again, over any connections; all that is
written goes over the network in any segments.  The second search gives an entry with the same DN and the content that the program
sees; on the server, the attributes that it had not asked for are as they were.  The program edits only attributes it had asked for.

The values of the entry are UTF-8 (C76 `not_deletable`).
-/
namespace Verif.C94
open Verif.Ldap Verif.Spec Verif.Spec.Modify Verif.C49 Verif.C76
open Verif.Server (Env Luck State ascii)
open Verif.Syntax (Edit edit addValue removeValue clearValues committed St)
open Verif.C93 (CanSearch)

/-- The attribute that an edit is about. -/
def keyOf : Edit → PyStr
  | .add k _ => k
  | .update k _ => k
  | .remove k _ => k
  | .clear k => k
  | .set k _ => k
  | .del k => k

theorem target_key {U : Unicode} (hU : Sane U) {s : St} (hn : allOctets.Named s.attrs) {k : PyStr} (hk : k.Ascii) {p : PyStr × List PyStr}
    (h : Syntax.target U s k = .ok p) : fold p.1.toBytes = fold k.toBytes := by
  obtain ⟨hp, _, y, hy, hl⟩ := Syntax.target_mem h
  have hyA : y.Ascii := by unfold PyStr.Ascii; rw [hy]; exact hk
  have := Match.sameName_lower hU (hn.names p hp).ascii hyA hl
  unfold SameName at this
  rw [hy] at this
  exact this

theorem edit_key {U : Unicode} (hU : Sane U) {s : St} (hn : allOctets.Named s.attrs) {e : Edit} (hk : (keyOf e).Ascii) :
    ∀ m ∈ (edit U s e).1.journal, m ∈ s.journal ∨ fold m.key.toBytes = fold (keyOf e).toBytes := by
  have hrec : ∀ (s' : St) (m : Mod), s'.journal = s.journal ++ [m] → fold m.key.toBytes = fold (keyOf e).toBytes →
      ∀ x ∈ s'.journal, x ∈ s.journal ∨ fold x.key.toBytes = fold (keyOf e).toBytes := by
    intro s' m h hm x hx
    rw [h] at hx
    rcases List.mem_append.mp hx with hx | hx
    · exact .inl hx
    · rw [List.mem_singleton.mp hx]; exact .inr hm
  cases e with
  | add k v =>
    simp only [edit]
    cases hp : Syntax.target U s k with
    | error x => exact fun m hm => .inl hm
    | ok p =>
      have hx := target_key hU hn hk hp
      simp only [addValue]
      split
      · exact hrec _ ⟨.add, p.1, [v]⟩ rfl hx
      · exact hrec _ ⟨.add, p.1, [v]⟩ rfl hx
  | update k vs =>
    simp only [edit]
    cases hp : Syntax.target U s k with
    | error x => exact fun m hm => .inl hm
    | ok p => exact hrec _ ⟨.add, p.1, mkSet vs⟩ rfl (target_key hU hn hk hp)
  | remove k v =>
    simp only [edit]
    cases hp : Syntax.target U s k with
    | error x => exact fun m hm => .inl hm
    | ok p =>
      have hx := target_key hU hn hk hp
      simp only [removeValue]
      split
      · split
        · exact fun m hm => .inl hm
        · split
          · exact hrec _ ⟨.delete, p.1, [v]⟩ rfl hx
          · exact hrec _ ⟨.delete, p.1, [v]⟩ rfl hx
      · exact fun m hm => .inl hm
  | clear k =>
    simp only [edit]
    cases hp : Syntax.target U s k with
    | error x => exact fun m hm => .inl hm
    | ok p =>
      simp only [clearValues]
      split
      · exact fun m hm => .inl hm
      · exact hrec _ ⟨.delete, p.1, []⟩ rfl (target_key hU hn hk hp)
  | set k vs =>
    simp only [edit, Syntax.setItem]
    split
    · exact fun m hm => .inl hm
    · exact hrec _ ⟨.replace, k, mkSet vs⟩ rfl rfl
  | del k =>
    simp only [edit, Syntax.delItem]
    split
    · exact fun m hm => .inl hm
    · split
      · exact fun m hm => .inl hm
      · exact hrec _ ⟨.delete, k, []⟩ rfl rfl

/-- What is recorded is about the attributes of the edits. -/
theorem edits_keys {U : Unicode} (hU : Sane U) {K : Bytes → Prop} (es : List Edit) {s : St} (hd : allOctets.Tidy s.attrs)
    (he : ∀ e ∈ es, allOctets.Speaks e ∧ (keyOf e).Ascii ∧ K (fold (keyOf e).toBytes)) (h : ∀ m ∈ s.journal, K (fold m.key.toBytes)) :
    ∀ m ∈ (edits U s es).journal, K (fold m.key.toBytes) := by
  induction es generalizing s with
  | nil => exact h
  | cons e es ih =>
    obtain ⟨he1, he2, he3⟩ := he e List.mem_cons_self
    have hx : allOctets.Tidy (edit U s e).1.attrs := by
      rcases Syntax.edit_edited hU allOctets_fine hd he1 with ⟨h', _⟩ | ⟨m, _, hm⟩
      · rw [h']; exact hd
      · exact hm.tidy
    refine ih hx (fun x hx => he x (List.mem_cons_of_mem _ hx)) fun m hm => ?_
    rcases edit_key hU hd.toNamed he2 m hm with h' | h'
    · exact h m h'
    · rw [h']; exact he3

/-- An attribute that is asked for. -/
def Known (wanted : List Bytes) (n : Bytes) : Prop := Explicit wanted → ∃ k ∈ wanted, fold k = n

theorem copy_content {e : Entry} {wanted : List Bytes} {b : Bool} {x : St} (hc : Copy e wanted b x) (n v : Bytes) :
    content x.attrs n v ↔ content e.attrs n v ∧ Known wanted n := by
  have h1 : content x.attrs n v ↔ ∃ u, Has x.attrs n u ∧ u.toBytes = v := by
    constructor
    · rintro ⟨p, hp, h, u, hu, hv⟩; exact ⟨u, ⟨p, hp, h, hu⟩, hv⟩
    · rintro ⟨u, ⟨p, hp, h, hu⟩, hv⟩; exact ⟨p, hp, h, u, hu, hv⟩
  rw [h1]
  constructor
  · rintro ⟨u, hu, rfl⟩
    obtain ⟨⟨a, vs, t, g1, g2, g3, rfl⟩, hk⟩ := (hc.attrs n u).mp hu
    exact ⟨⟨(a, vs), g1, g2, t, g3, rfl⟩, hk⟩
  · rintro ⟨⟨⟨a, vs⟩, g1, g2, t, g3, rfl⟩, hk⟩
    exact ⟨.bytes t.toBytes, (hc.attrs n _).mpr ⟨⟨a, vs, t, g1, g2, g3, rfl⟩, hk⟩, rfl⟩

theorem copy_tidy {e : Entry} {wanted : List Bytes} {b : Bool} {x : St} (hc : Copy e wanted b x)
    (hdec : ∀ p ∈ e.attrs, ∀ v ∈ p.2, v.Decodable) : allOctets.Tidy x.attrs := by
  refine ⟨hc.named, fun p hp v hv => ?_, hc.sets⟩
  obtain ⟨⟨a, vs, t, g1, _, g3, rfl⟩, _⟩ := (hc.attrs _ v).mp ⟨p, hp, rfl, hv⟩
  exact ⟨rfl, toBytes_decodable (hdec (a, vs) g1 t g3)⟩

theorem tidy_sendable {e : Entry} (h : rawOctets.Tidy e.attrs) {wanted : List Bytes} (hm : Modest e wanted) : C67.Sendable e wanted :=
  ⟨⟨fun k vs hk => (h.names (k, vs) hk).ascii, h.apart⟩, fun k vs hk => .inr fun v hv => h.values (k, vs) hk v hv, hm⟩

/-- The request for one entry. -/
def baseRequest (d : Dn.Dn) (deref sl tl : Int) (ty : Bool) (f : Spec.Filter) (wanted : List Bytes) : Obj :=
  (Op.search (Utf8.encode d.text) 0 deref sl tl ty f wanted).build

/-- The search for one entry that matches gives that entry. -/
theorem one_found (env : Env) (hU : Sane env.U) (luck : Luck) (st : State) (hb : C67.Built env st.heap) (w : Client.World)
    (app : Client.App) (fuel c : Nat) (o : ClientSearch.Options) (hw : CanSearch env.U app c o w) (d : Dn.Dn) (hd : Textual d) (hne : d ≠ [])
    (deref sl tl : Int) (ty : Bool) (f : Spec.Filter) (wanted : List Bytes) (hwant : ∀ k ∈ wanted, (PyStr.bytes k).Ascii)
    (hdist : Explicit wanted → wanted.Pairwise fun j k => fold j ≠ fold k)
    (j : Nat) (hj : Tree.lookup env.U st.heap 0 d = .ok j) (n : Tree.Node) (hn : st.heap[j]? = some n) (hs : C67.Sendable n.entry wanted)
    (ht : Textual n.entry.dn) (hok : Match.eval env.U n.entry f.sem = .ok true)
    (hsize : (Msg.mk w.nextId (.search (Utf8.encode d.text) 0 deref sl tl ty f wanted) none).size < lengthLimit) :
    Searched env luck app fuel c o w (baseRequest d deref sl tl ty f wanted) st fun r =>
      r.outcome = some .finished ∧ ∃ e, r.entries = [e] ∧ Copy n.entry wanted o.complete e := by
  have hlt := (List.getElem?_eq_some_iff.mp hn).1
  have hat : ∀ k m, C26.InScope st.heap j .base k → st.heap[k]? = some m → m = n := by
    intro k m hk hm
    cases hk
    rw [hn] at hm; exact (Option.some.inj hm).symm
  obtain ⟨out, hlog, hex⟩ := C75.search env hU luck st hb w app fuel c o hw.quiet hw.searches hw.new hw.connected hw.id hw.free d hd 0 deref sl tl ty
    f wanted hwant hdist .base .base (.inl hne) j hj hlt
    (fun k hk m hm => ⟨true, by rw [hat k m hk hm]; exact hok⟩) (fun k m hk hm => by rw [hat k m hk hm]; exact ⟨hs, ht⟩) hsize
  refine ⟨_, out, rfl, hlog, fun segs hsegs => ?_⟩
  obtain ⟨sent, back, g1, g2, g3, g4⟩ := hex segs hsegs
  refine ⟨sent, back, g1, g2, g3, fun segs' hsegs' => ?_⟩
  obtain ⟨k1, k2, k3, k4, ks, k5, k6, k7, _⟩ := g4 segs' hsegs'
  refine ⟨k1, k2, k4, ?_⟩
  have hks : ks = [j] := by
    have hmem : ∀ k, k ∈ ks ↔ k = j := fun k => (k6 k).trans ⟨fun h => h.1, fun h => ⟨h, by subst h; exact ⟨n, hn, hok⟩⟩⟩
    match ks, k7 with
    | [], _ => exact absurd ((hmem j).mpr rfl) (by simp)
    | [x], _ => rw [(hmem x).mp List.mem_cons_self]
    | x :: y :: l, hl =>
      have h1 := (hmem x).mp List.mem_cons_self
      have h2 := (hmem y).mp (List.mem_cons_of_mem _ List.mem_cons_self)
      simp [h1, h2] at hl
  subst hks
  obtain ⟨e, he, m, hm, hc⟩ := C93.each_one k5
  rw [hn] at hm
  cases hm
  exact ⟨e, he, hc⟩

/-- **C94** -/
theorem read_back (env : Env) (hU : Sane env.U) (luck : Luck) (st : State) (hb : C67.Built env st.heap) (w : Client.World)
    (app : Client.App) (fuel c : Nat) (o : ClientSearch.Options) (hw : CanSearch env.U app c o w) (d : Dn.Dn) (hd : Textual d) (hne : d ≠ [])
    (deref sl tl : Int) (ty : Bool) (f : Spec.Filter) (wanted : List Bytes) (hwant : ∀ k ∈ wanted, (PyStr.bytes k).Ascii)
    (hdist : Explicit wanted → wanted.Pairwise fun j k => fold j ≠ fold k)
    (j : Nat) (hj : Tree.lookup env.U st.heap 0 d = .ok j) (n : Tree.Node) (hn : st.heap[j]? = some n)
    (ho : rawOctets.Tidy n.entry.attrs) (hdec : ∀ p ∈ n.entry.attrs, ∀ v ∈ p.2, v.Decodable) (hm : Modest n.entry wanted)
    (ht : Textual n.entry.dn) (hself : Tree.lookup env.U st.heap 0 n.entry.dn = .ok j) (hroot : n.entry.dn ≠ [])
    (hok : Match.eval env.U n.entry f.sem = .ok true)
    (hsize : (Msg.mk w.nextId (.search (Utf8.encode d.text) 0 deref sl tl ty f wanted) none).size < lengthLimit) :
    Searched env luck app fuel c o w (baseRequest d deref sl tl ty f wanted) st fun r =>
      r.outcome = some .finished ∧ ∃ x, r.entries = [x] ∧ Copy n.entry wanted o.complete x ∧
      ∀ (es : List Edit), (∀ e ∈ es, allOctets.Speaks e ∧ (keyOf e).Ascii ∧ Known wanted (fold (keyOf e).toBytes)) →
        AllSensible env.U x es → (edits env.U x es).journal ≠ [] →
      ∀ (w' : Client.World) (app' : Client.App) (fuel' c' : Nat), (w'.conns c').connected = true → 0 < w'.nextId ∧ w'.nextId < 2 ^ 31 →
        (w'.conns c').onwire.lookup w'.nextId = none →
        (Msg.mk w'.nextId (.modify (Utf8.encode x.dn.text) ((edits env.U x es).journal.map fun m => (change m).wire)) none).size < lengthLimit →
      ∃ ms e' s' answer, Syntax.commit (edits env.U x es) = .ok (some ms) ∧
        Exchanged env luck app' fuel' c' w' (.send c' (Session.commitRequest (edits env.U x es).dn ms) none) st
          { st with heap := st.heap.set j { n with entry := e' } } (.response answer) ∧
        committed env (edits env.U x es) answer = (s', none) ∧ s'.journal = [] ∧ s'.attrs = (edits env.U x es).attrs ∧
        Agree (fun a => ¬ Known wanted a) (content e'.attrs) (content n.entry.attrs) ∧
        ∀ (w₂ : Client.World) (app₂ : Client.App) (fuel₂ c₂ : Nat) (o₂ : ClientSearch.Options) (f₂ : Spec.Filter),
          CanSearch env.U app₂ c₂ o₂ w₂ → Modest e' wanted → Match.eval env.U e' f₂.sem = .ok true →
          (Msg.mk w₂.nextId (.search (Utf8.encode x.dn.text) 0 deref sl tl ty f₂ wanted) none).size < lengthLimit →
          Searched env luck app₂ fuel₂ c₂ o₂ w₂ (baseRequest x.dn deref sl tl ty f₂ wanted)
            { st with heap := st.heap.set j { n with entry := e' } } fun r₂ =>
              r₂.outcome = some .finished ∧ ∃ y, r₂.entries = [y] ∧ y.dn = x.dn ∧ Same (content y.attrs) (content s'.attrs) := by
  refine C93.Searched.mono (one_found env hU luck st hb w app fuel c o hw d hd hne deref sl tl ty f wanted hwant hdist j hj n hn
    (tidy_sendable ho hm) ht hok hsize) ?_
  rintro r ⟨h1, x, h2, hx⟩
  refine ⟨h1, x, h2, hx, ?_⟩
  intro es he hsens hjne w' app' fuel' c' hconn hid hfree hsz
  have htidy := copy_tidy hx hdec
  have hK := edits_keys hU (K := Known wanted) es htidy he (by rw [hx.journal]; intro m hm; cases hm)
  have hagree : Agree (Known wanted) (content n.entry.attrs) (content x.attrs) := by
    intro a b hk
    rw [copy_content hx]
    exact ⟨fun h => ⟨h, hk⟩, And.left⟩
  obtain ⟨ms, e', s', answer, g1, g2, g3, g4, g5, g6, g7, g8, g9, g10, g11⟩ := commit env hU allOctets allOctets_fine C50.allOctets_plain luck st app' fuel' c' w'
    hconn hid hfree x hx.journal hx.remote htidy hx.ready (by rw [hx.dn]; exact ht) j n (by rw [hx.dn]; exact hself) hn ho (Known wanted) hagree es
    (fun e h => (he e h).1) hsens hjne hK hsz
  refine ⟨ms, e', s', answer, g1, g2, g3, g4, g5, g10, ?_⟩
  intro w₂ app₂ fuel₂ c₂ o₂ f₂ hw₂ hm₂ hok₂ hsz₂
  have hlt := (List.getElem?_eq_some_iff.mp hn).1
  refine C93.Searched.mono (one_found env hU luck _ (g11 hb) w₂ app₂ fuel₂ c₂ o₂ hw₂ x.dn (by rw [hx.dn]; exact ht) (by rw [hx.dn]; exact hroot)
    deref sl tl ty f₂ wanted hwant hdist j (by rw [hx.dn, C89.lookup_set env.U hn g7]; exact hself) { n with entry := e' }
    (List.getElem?_set_self hlt) (tidy_sendable g8 hm₂) (by show Textual e'.dn; rw [g7]; exact ht) hok₂ hsz₂) ?_
  rintro r₂ ⟨k1, y, k2, hy⟩
  refine ⟨k1, y, k2, by rw [hy.dn, hx.dn]; exact g7, fun a b => ?_⟩
  rw [copy_content hy]
  have hstep : InStep x := by unfold InStep; rw [hx.journal, hx.remote]; exact fun _ _ => Iff.rfl
  by_cases hk : Known wanted a
  · rw [← g9 a b hk]
    exact ⟨And.left, fun h => ⟨h, hk⟩⟩
  · constructor
    · intro h; exact absurd h.2 hk
    · intro h
      obtain ⟨_, hin, hrem⟩ := edits_inStep hU allOctets_fine es htidy hstep fun e h => (he e h).1
      rw [g5, ← hin a b, hrem, hx.remote, effects_outside (K := Known wanted) _ (by
        intro m hm
        obtain ⟨z, hz, rfl⟩ := List.mem_map.mp hm
        exact hK z hz) _ hk b, copy_content hx] at h
      exact absurd h.2 hk

/-! ### Example: the entry `cn=b,dc=a` of C67 -/

def wanted : List Bytes := [ascii "CN", ascii "mail"]

def program : List Edit := [.set (.bytes (ascii "mail")) [.bytes (ascii "m")]]

theorem set_done {U : Unicode} {x : St} (hj : x.journal = []) (hd : x.deleted = false) (hdn : x.dn = C67.child.dn) :
    (edits U x program).journal = [⟨.replace, .bytes (ascii "mail"), [.bytes (ascii "m")]⟩] := by
  have : mkSet [PyStr.bytes (ascii "m")] = [.bytes (ascii "m")] := by decide +kernel
  have hc : Syntax.canRemoveAll x (.bytes (ascii "mail")) = none := by
    simp only [Syntax.canRemoveAll, hd, hdn]
    decide +kernel
  simp only [edits, program, List.foldl_cons, List.foldl_nil, edit, Syntax.setItem, hd, hj, this, hc]
  rfl

/-- A program that reads `CN` and `mail`, sets `mail`, and commits: the hypotheses of the theorem can be met, those within as well. -/
example : Searched C40.env C40.luck (C75.program asciiTables C75.options 0) 0 0 C75.options C75.world
    (baseRequest C67.child.dn 0 0 0 false (.present (ascii "cn")) wanted) ⟨C67.heap, none⟩ fun r =>
      ∃ x, r.entries = [x] ∧ ∃ ms e' s' answer, Syntax.commit (edits asciiTables x program) = .ok (some ms) ∧
        Exchanged C40.env C40.luck (C75.program asciiTables C75.options 0) 0 0 C75.world
          (.send 0 (Session.commitRequest (edits asciiTables x program).dn ms) none) ⟨C67.heap, none⟩
          ⟨C67.heap.set 1 ⟨e', some 0, []⟩, none⟩ (.response answer) ∧
        committed C40.env (edits asciiTables x program) answer = (s', none) ∧
        (Modest e' wanted → Match.eval asciiTables e' (Filter.present (ascii "cn")).sem = .ok true →
          Searched C40.env C40.luck (C75.program asciiTables C75.options 0) 0 0 C75.options C75.world
            (baseRequest x.dn 0 0 0 false (.present (ascii "cn")) wanted) ⟨C67.heap.set 1 ⟨e', some 0, []⟩, none⟩ fun r₂ =>
              ∃ y, r₂.entries = [y] ∧ Same (content y.attrs) (content s'.attrs)) := by
  have hsize : (Msg.mk C75.world.nextId (.search (Utf8.encode C67.child.dn.text) 0 0 0 0 false (.present (ascii "cn")) wanted) none).size <
      lengthLimit := Nat.lt_trans (by decide +kernel) Server.two64_lt_limit
  refine C93.Searched.mono (read_back C40.env asciiTables_sane C40.luck ⟨C67.heap, none⟩ C67.built C75.world _ 0 0 C75.options C93.can C67.child.dn
    (C75.writable 1 _ rfl) (by decide) 0 0 0 false (.present (ascii "cn")) wanted (by unfold PyStr.Ascii; decide +kernel)
    (fun _ => by decide +kernel) 1 (by decide +kernel) ⟨C67.child, some 0, []⟩ rfl child_octets (fun p hp v hv => PyStr.ascii_decodable (by
      revert p v; unfold PyStr.Ascii; decide +kernel)) ?_ (C75.writable 1 _ rfl) (by decide +kernel) (by decide) (by decide +kernel) hsize) ?_
  · have := (C67.sendable 1 _ rfl).modest
    exact ⟨this.dn, this.count, this.names, by decide⟩
  · rintro r ⟨_, x, h2, hx, h⟩
    have hj := set_done (U := asciiTables) hx.journal hx.ready hx.dn
    obtain ⟨ms, e', s', answer, g1, g2, g3, _, _, _, g7⟩ := h program (by
        intro e he
        rw [List.mem_singleton.mp he]
        refine ⟨⟨⟨by unfold PyStr.Ascii; decide +kernel, rfl⟩, fun v hv => ?_⟩, by unfold PyStr.Ascii; decide +kernel, fun _ => ⟨ascii "mail", by decide +kernel, rfl⟩⟩
        rw [List.mem_singleton.mp hv]
        exact ⟨rfl, PyStr.ascii_decodable (by unfold PyStr.Ascii; decide +kernel)⟩)
      ⟨trivial, trivial⟩ (by show (edits asciiTables x program).journal ≠ []; rw [hj]; simp) C75.world _ 0 0 C93.can.connected C93.can.id C93.can.free (by
        show (Msg.mk _ (.modify _ ((edits asciiTables x program).journal.map _)) none).size < _
        rw [hj, hx.dn]
        exact Nat.lt_trans (by decide +kernel) Server.two64_lt_limit)
    refine ⟨x, h2, ms, e', s', answer, g1, g2, g3, fun hm hok => ?_⟩
    refine C93.Searched.mono (g7 C75.world _ 0 0 C75.options (.present (ascii "cn")) C93.can hm hok (by rw [hx.dn]; exact hsize)) ?_
    rintro r₂ ⟨_, y, k1, _, k2⟩
    exact ⟨y, k1, k2⟩

end Verif.C94
