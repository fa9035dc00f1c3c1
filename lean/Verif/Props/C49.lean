import Verif.Lemmas.SyntaxItems
/-
C49: the recorded edits of a connected entry, sent to the server, turn the last known server state into the local view.

`replay_partial`: so it is, for every sequence of edits, as a server carries out modify requests (RFC 4511, `Spec/Modify`), if the
program spells each attribute name always as text or always as octets, and if no value has two forms (`Vocabulary.Fine`).
`accepted`: if moreover what is added is new and what is cleared is there, a strict server accepts all of the request.

Without these conditions it is false.  `other_kind`: an entry that came from a search has its names as octets; assigning to
the attribute spelled as text makes a second attribute.  `octets_fail`: adding a value that is not UTF-8 raises
`UnicodeDecodeError`, but the edit was recorded already and will be sent.  `added_again` and `cleared_empty`: adding a
value that is there already, or clearing an attribute without values, is recorded, and a strict server refuses the request.
-/
namespace Verif.C49
open Verif.Spec.Modify Verif.Syntax

variable {U : Unicode} {V : Vocabulary}

/-- The entry after edits; the exceptions of edits are caught by the program. -/
def edits (U : Unicode) (s : St) (es : List Edit) : St := es.foldl (fun s e => (edit U s e).1) s

/-- The record leads from the server state to the local view. -/
def InStep (s : St) : Prop := Same (effects (s.journal.map change) (content s.remote)) (content s.attrs)

theorem effect_same {m : Change} {c d : Content} (h : Same c d) : Same (m.effect c) (m.effect d) := by
  intro n b
  unfold Change.effect
  split
  · cases m.kind <;> simp [h n b]
  · exact h n b

theorem effects_append (ms ns : List Change) (c : Content) : effects (ms ++ ns) c = effects ns (effects ms c) := by
  simp [effects]

theorem effects_same {ms : List Change} {c d : Content} (h : Same c d) : Same (effects ms c) (effects ms d) := by
  induction ms generalizing c d with
  | nil => exact h
  | cons m ms ih => exact ih (effect_same h)

theorem accepted_same {m : Change} {c d : Content} (h : Same c d) : m.Accepted c ↔ m.Accepted d := by
  unfold Change.Accepted
  cases m.kind <;> simp [h _ _]

theorem allAccepted_append (ms ns : List Change) (c : Content) : AllAccepted (ms ++ ns) c ↔ AllAccepted ms c ∧ AllAccepted ns (effects ms c) := by
  induction ms generalizing c with
  | nil => simp [AllAccepted, effects]
  | cons m ms ih =>
    simp only [List.cons_append, AllAccepted, ih, and_assoc]
    exact Iff.rfl

/-- One edit. -/
theorem edit_inStep (hU : Sane U) (hV : V.Fine) {s : St} (hd : V.Tidy s.attrs) (h : InStep s) {e : Edit} (he : V.Speaks e) :
    V.Tidy (edit U s e).1.attrs ∧ InStep (edit U s e).1 ∧ (edit U s e).1.remote = s.remote := by
  rcases edit_edited hU hV hd he with ⟨hs, _⟩ | ⟨m, _, hm⟩
  · rw [hs]; exact ⟨hd, h, rfl⟩
  · refine ⟨hm.tidy, ?_, hm.remote⟩
    unfold InStep
    rw [hm.journal, hm.remote, List.map_append, effects_append]
    intro n b
    rw [show effects ([m].map change) (effects (s.journal.map change) (content s.remote)) =
      (change m).effect (effects (s.journal.map change) (content s.remote)) from rfl, effect_same h n b]
    exact hm.effect n b

theorem edits_inStep (hU : Sane U) (hV : V.Fine) (es : List Edit) {s : St} (hd : V.Tidy s.attrs) (h : InStep s) (he : ∀ e ∈ es, V.Speaks e) :
    V.Tidy (edits U s es).attrs ∧ InStep (edits U s es) ∧ (edits U s es).remote = s.remote := by
  induction es generalizing s with
  | nil => exact ⟨hd, h, rfl⟩
  | cons e es ih =>
    obtain ⟨h1, h2, h3⟩ := edit_inStep hU hV hd h (he e List.mem_cons_self)
    obtain ⟨h4, h5, h6⟩ := ih h1 h2 fun x hx => he x (List.mem_cons_of_mem _ hx)
    exact ⟨h4, h5, h6.trans h3⟩

/-- **C49** The edits that were recorded lead from what the entry was to what it looks like now. -/
theorem replay_partial (hU : Sane U) (hV : V.Fine) (s : St) (hj : s.journal = []) (hr : s.remote = s.attrs) (hd : V.Tidy s.attrs)
    (es : List Edit) (he : ∀ e ∈ es, V.Speaks e) :
    Same (effects ((edits U s es).journal.map change) (content s.attrs)) (content (edits U s es).attrs) := by
  have h0 : InStep s := by unfold InStep; rw [hj, hr]; exact fun _ _ => Iff.rfl
  obtain ⟨_, h, e⟩ := edits_inStep hU hV es hd h0 he
  unfold InStep at h
  rw [e, hr] at h
  exact h

/-- **C49** The same for an entry made from attributes, as search results are. -/
theorem replay_init_partial (hU : Sane U) (hV : V.Fine) (dn : Dn.Dn) (as : Verif.Attrs) (complete : Bool) (hn : V.Named as)
    (hv : ∀ p ∈ as, ∀ v ∈ p.2, V.value (fold p.1.toBytes) v) (es : List Edit) (he : ∀ e ∈ es, V.Speaks e) :
    Same (effects ((edits U (init U dn as complete) es).journal.map change) (content as)) (content (edits U (init U dn as complete) es).attrs) := by
  obtain ⟨h1, h2⟩ := copy_tidy hn hv
  have ha : (init U dn as complete).attrs = as.map fun p => (p.1, mkSet p.2) := buildAttrs_named hU hn
  have h := replay_partial hU hV (init U dn as complete) rfl rfl (by rw [ha]; exact h1) es he
  intro n b
  rw [← h n b, ha]
  exact effects_same (fun n b => (content_of_has h2 n b).symm) n b

/-- Every edit makes sense when its turn comes. -/
def AllSensible (U : Unicode) : St → List Edit → Prop
  | _, [] => True
  | s, e :: es => Sensible (content s.attrs) e ∧ AllSensible U (edit U s e).1 es

/-- **C49** A strict server accepts every change that was recorded. -/
theorem accepted (hU : Sane U) (hV : V.Fine) (s : St) (hj : s.journal = []) (hr : s.remote = s.attrs) (hd : V.Tidy s.attrs)
    (es : List Edit) (he : ∀ e ∈ es, V.Speaks e) (hs : AllSensible U s es) :
    AllAccepted ((edits U s es).journal.map change) (content s.attrs) := by
  have h0 : InStep s := by unfold InStep; rw [hj, hr]; exact fun _ _ => Iff.rfl
  have ha : AllAccepted (s.journal.map change) (content s.remote) := by rw [hj]; trivial
  rw [← hr]
  clear hj hr
  induction es generalizing s with
  | nil => exact ha
  | cons e es ih =>
    obtain ⟨h1, h2, h3⟩ := edit_inStep hU hV hd h0 (he e List.mem_cons_self)
    have := ih (edit U s e).1 h1 (fun x hx => he x (List.mem_cons_of_mem _ hx)) hs.2 h2 ?_
    · rw [h3] at this; exact this
    · rcases edit_edited hU hV hd (he e List.mem_cons_self) with ⟨h, _⟩ | ⟨m, _, hm⟩
      · rw [h]; exact ha
      · rw [hm.journal, hm.remote, List.map_append, allAccepted_append]
        exact ⟨ha, (accepted_same h0).mpr (hm.accepted hs.1), trivial⟩

/-- The entry has the attribute. -/
def There (s : St) (k : PyStr) : Prop := ∃ p ∈ s.attrs, fold p.1.toBytes = fold k.toBytes

/-- The name of the entry has no such part. -/
def Free (s : St) (P : Dn.Ava → Prop) : Prop := ∃ r rest, s.dn = r :: rest ∧ ∀ a ∈ r, ¬ P a

/-- Edits that should work: the attribute is there, a value to be removed is there, the name of the entry is not touched. -/
def Possible (V : Vocabulary) (s : St) : Edit → Prop
  | .add k _ => There s k
  | .update k _ => There s k
  | .remove k v => k.Ascii ∧ (∃ p ∈ s.attrs, fold p.1.toBytes = fold k.toBytes ∧ v ∈ p.2) ∧
      Free s fun a => fold (Utf8.encode a.attributeType) = fold k.toBytes ∧ Utf8.encode a.value = v.toBytes
  | .clear k => There s k ∧ Free s fun a => fold (Utf8.encode a.attributeType) = fold k.toBytes
  | .set k _ => Free s fun a => fold (Utf8.encode a.attributeType) = fold k.toBytes
  | .del k => V.Name k ∧ There s k ∧ Free s fun a => fold (Utf8.encode a.attributeType) = fold k.toBytes

theorem free_canRemoveAll {s : St} (ha : s.deleted = false) {k key : PyStr} (hk : fold key.toBytes = fold k.toBytes)
    (h : Free s fun a => fold (Utf8.encode a.attributeType) = fold k.toBytes) : canRemoveAll s key = none := by
  obtain ⟨r, rest, hdn, hr⟩ := h
  simp only [canRemoveAll, ha, hdn]
  rw [if_neg (by decide), if_neg]
  simp only [List.any_eq_true, decide_eq_true_eq, not_exists, not_and]
  intro a har e
  exact hr a har (by rw [← hk, ← e]; rfl)

/-- Edits that should work are carried out and recorded. -/
theorem works (hU : Sane U) (hV : V.Fine) (s : St) (hd : V.Tidy s.attrs) (ha : s.deleted = false) (e : Edit) (he : V.Speaks e) (hp : Possible V s e) :
    (edit U s e).2 = none ∧ ∃ m, (edit U s e).1.journal = s.journal ++ [m] ∧ Same ((change m).effect (content s.attrs)) (content (edit U s e).1.attrs) := by
  suffices h : (edit U s e).2 = none by
    rcases edit_edited hU hV hd he with ⟨_, h'⟩ | ⟨m, _, hm⟩
    · exact absurd h h'
    · exact ⟨h, m, hm.journal, hm.effect⟩
  cases e with
  | add k v =>
    obtain ⟨p, hm, hn⟩ := hp
    have hv : V.value (fold p.1.toBytes) v := hn ▸ he.2
    simp only [edit, target_found hU hd.toNamed ha he.1 hm hn, addValue, add_value hV (hd.values p hm) hv]
  | update k vs =>
    obtain ⟨p, hm, hn⟩ := hp
    simp only [edit, target_found hU hd.toNamed ha he.1 hm hn]
  | remove k v =>
    obtain ⟨hk, ⟨p, hm, hn, hv⟩, r, rest, hdn, hr⟩ := hp
    have hc : canRemove s p.1 v = none := by
      simp only [canRemove, ha, hdn]
      rw [if_neg (by decide), if_neg]
      simp only [List.any_eq_true, Bool.and_eq_true, decide_eq_true_eq, not_exists, not_and]
      intro a har e1 e2
      exact hr a har ⟨by rw [← hn, ← e1]; rfl, by rw [← e2]; rfl⟩
    simp only [edit, target_found hU hd.toNamed ha hk hm hn, removeValue, if_pos hv, hc,
      Delta.remove_mem (hV.decodable _ _ (hd.values p hm v hv)) hv]
  | clear k =>
    obtain ⟨⟨p, hm, hn⟩, hf⟩ := hp
    simp only [edit, target_found hU hd.toNamed ha he hm hn, clearValues, free_canRemoveAll ha hn hf]
  | set k vs => simp only [edit, setItem, free_canRemoveAll ha rfl hp]
  | del k =>
    obtain ⟨hk, ⟨p, hm, hn⟩, hf⟩ := hp
    have hfind : ∃ vs, s.attrs.find U k = some vs := by
      cases h : s.attrs.find U k with
      | some vs => exact ⟨vs, rfl⟩
      | none => exact absurd ((name_lower hU (hd.names p hm) hk).mpr hn) (Match.find_none h p.1 p.2 hm)
    obtain ⟨vs, hfind⟩ := hfind
    simp only [edit, delItem, free_canRemoveAll ha rfl hf, hfind]

/-! ### Two vocabularies -/

theorem allText_fine : allText.Fine where
  decodable := fun _ v hv => by
    cases v with
    | text s => exact ⟨s, rfl⟩
    | bytes b => cases hv
  oneForm := fun _ v w hv hw h => by
    cases v with
    | bytes b => cases hv
    | text s =>
      cases w with
      | bytes b => cases hw
      | text t =>
        have := Utf8.encode_injective h
        rw [this]

theorem allOctets_fine : allOctets.Fine where
  decodable := fun _ _ hv => hv.2
  oneForm := fun _ v w hv hw h => by
    cases v with
    | text s => cases hv.1
    | bytes b =>
      cases w with
      | text t => cases hw.1
      | bytes c => exact congrArg _ h

/-! ### Examples -/

def bytes (s : String) : PyStr := .bytes (Server.ascii s)

/-- An entry as it comes from a search. -/
def found : St :=
  let d := [(bytes "cn", [bytes "bob"]), (bytes "mail", [bytes "b@x", bytes "b@y"])]
  ⟨[[⟨"cn".toList, "bob".toList⟩]], d, d, [], false, true⟩

def change1 : List Edit :=
  [.add (bytes "MAIL") (bytes "b@z"), .remove (.text "mail".toList) (bytes "b@x"), .set (bytes "sn") [bytes "Bo", bytes "Bo"],
   .clear (bytes "mail"), .remove (bytes "sn") (bytes "no"), .del (bytes "Sn")]

theorem found_tidy : allOctets.Tidy found.attrs := by
  refine ⟨⟨?_, ?_⟩, ?_, ?_⟩
  · intro p hp
    rcases List.mem_cons.mp hp with rfl | hp
    · exact ⟨by decide +kernel, rfl⟩
    · rw [List.mem_singleton.mp hp]; exact ⟨by decide +kernel, rfl⟩
  · decide +kernel
  · intro p hp v hv
    refine ⟨?_, PyStr.ascii_decodable ?_⟩ <;> revert p v <;> decide +kernel
  · decide +kernel

theorem change1_speaks : ∀ e ∈ change1, allOctets.Speaks e := by
  have hv : ∀ s : String, (bytes s).Ascii → (bytes s).isText = false ∧ (bytes s).Decodable := fun s h => ⟨rfl, PyStr.ascii_decodable h⟩
  intro e he
  simp only [change1, List.mem_cons, List.not_mem_nil, or_false] at he
  rcases he with rfl | rfl | rfl | rfl | rfl | rfl
  · exact ⟨by decide +kernel, hv _ (by decide +kernel)⟩
  · trivial
  · refine ⟨⟨by decide +kernel, rfl⟩, fun v h => ?_⟩
    have : v = bytes "Bo" := by simpa using h
    rw [this]; exact hv _ (by decide +kernel)
  · show (bytes "mail").Ascii; decide +kernel
  · trivial
  · show (bytes "Sn").Ascii; decide +kernel

example : Same (effects ((edits asciiTables found change1).journal.map change) (content found.attrs)) (content (edits asciiTables found change1).attrs) :=
  replay_partial asciiTables_sane allOctets_fine found rfl rfl found_tidy change1 change1_speaks

example : (edits asciiTables found change1).journal.map (·.kind) = [.add, .delete, .replace, .delete, .delete] := by decide +kernel

instance (d : Verif.Attrs) (n b : Bytes) : Decidable (content d n b) := by unfold content; infer_instance

theorem change1_sensible : AllSensible asciiTables found change1 := by
  refine ⟨?_, trivial, trivial, ⟨Server.ascii "b@y", ?_⟩, trivial, ⟨Server.ascii "Bo", ?_⟩, trivial⟩
  · show ¬ content _ _ _
    decide +kernel
  · decide +kernel
  · decide +kernel

example : AllAccepted ((edits asciiTables found change1).journal.map change) (content found.attrs) :=
  accepted asciiTables_sane allOctets_fine found rfl rfl found_tidy change1 change1_speaks change1_sensible

example : (edit asciiTables found (.remove (.text "MAIL".toList) (bytes "b@y"))).2 = none :=
  (works asciiTables_sane allOctets_fine found found_tidy rfl (.remove (.text "MAIL".toList) (bytes "b@y")) trivial
    ⟨by decide +kernel, ⟨_, List.mem_cons_of_mem _ List.mem_cons_self, by decide +kernel, by decide +kernel⟩, _, _, rfl, by decide +kernel⟩).1

/-! ### Where it fails -/

/-- **C49 fails** for a program that spells a name as text that the entry has as octets: the attribute is there twice
afterwards, and the server will have only the new values. -/
theorem other_kind : ∃ (s : St) (e : Edit), s.journal = [] ∧ s.remote = s.attrs ∧ allOctets.Tidy s.attrs ∧
    (edit asciiTables s e).2 = none ∧ ¬ InStep (edit asciiTables s e).1 := by
  refine ⟨found, .set (.text "mail".toList) [.text "b@z".toList], rfl, rfl, found_tidy, by decide +kernel, fun h => ?_⟩
  have h := h (Server.ascii "mail") (Server.ascii "b@x")
  have h1 : ¬ effects ((edit asciiTables found (.set (.text "mail".toList) [.text "b@z".toList])).1.journal.map change)
      (content (edit asciiTables found (.set (.text "mail".toList) [.text "b@z".toList])).1.remote) (Server.ascii "mail") (Server.ascii "b@x") := by
    rw [show (edit asciiTables found (.set (.text "mail".toList) [.text "b@z".toList])).1.journal.map change =
      [⟨.replace, Server.ascii "mail", [Server.ascii "b@z"]⟩] by decide +kernel]
    simp only [effects, List.foldl_cons, List.foldl_nil]
    unfold Change.effect
    rw [if_pos (by decide +kernel)]
    show ¬ Server.ascii "b@x" ∈ [Server.ascii "b@z"]
    decide +kernel
  refine h1 (h.mpr ?_)
  rw [show (edit asciiTables found (.set (.text "mail".toList) [.text "b@z".toList])).1.attrs =
    found.attrs ++ [(.text "mail".toList, [.text "b@z".toList])] by decide +kernel]
  exact ⟨(bytes "mail", [bytes "b@x", bytes "b@y"]), by simp [found], by decide +kernel, bytes "b@x", by simp, rfl⟩

/-- **C49 fails** for values that are not UTF-8: the edit raises and does not change the local view, but it is recorded. -/
theorem octets_fail (s : St) (k : PyStr) (b : Bytes) (p : PyStr × List PyStr) (ht : target U s k = .ok p) (hb : ¬ (PyStr.bytes b).Decodable)
    (h : InStep s) (hn : ¬ content s.attrs (fold p.1.toBytes) b) :
    (edit U s (.add k (.bytes b))).2 = some (.py .unicodeError) ∧ (edit U s (.add k (.bytes b))).1.attrs = s.attrs ∧
    ¬ InStep (edit U s (.add k (.bytes b))).1 := by
  have ha : AttributeSet.add p.2 (.bytes b) = .error .unicodeError := by
    have : ∀ l, (PyStr.bytes b).getStrings ≠ .ok l := fun l hl => hb (PyStr.getStrings_total.mpr ⟨l, hl⟩)
    simp only [PyStr.getStrings, bind, Except.bind] at this
    simp only [AttributeSet.add, PyStr.getStrings, bind, Except.bind]
    cases hd : Utf8.decode b with
    | ok x => rw [hd] at this; exact absurd rfl (this _)
    | error x => cases Utf8.decode_error hd; rfl
  have he : edit U s (.add k (.bytes b)) = (s.record ⟨.add, p.1, [.bytes b]⟩, some (.py .unicodeError)) := by
    simp only [edit, ht, addValue, ha]
  rw [he]
  refine ⟨rfl, rfl, fun h' => hn ?_⟩
  have h' := h' (fold p.1.toBytes) b
  refine h'.mp ?_
  simp only [St.record, List.map_append, effects_append]
  show (change ⟨.add, p.1, [.bytes b]⟩).effect _ (fold p.1.toBytes) b
  rw [effect_at]
  exact .inr List.mem_cons_self

/-- Adding a value that is there is recorded, and a strict server will refuse it (`attributeOrValueExists`). -/
theorem added_again (s : St) (k v : PyStr) (p : PyStr × List PyStr) (ht : target U s k = .ok p) (hv : v ∈ p.2) (hd : v.Decodable) :
    (edit U s (.add k v)).2 = none ∧ (edit U s (.add k v)).1.journal = s.journal ++ [⟨.add, p.1, [v]⟩] ∧
    ¬ (change ⟨.add, p.1, [v]⟩).Accepted (content s.attrs) := by
  obtain ⟨l, hl⟩ := PyStr.getStrings_total.mp hd
  obtain ⟨y, rfl, _, _⟩ := PyStr.getStrings_ok hl
  have ha : AttributeSet.add p.2 v = .ok p.2 := by
    simp [AttributeSet.add, hl, bind, Except.bind, AttributeSet.firstIn, hv, pure, Except.pure]
  have he : edit U s (.add k v) = ((s.record ⟨.add, p.1, [v]⟩).put U p.1 p.2, none) := by simp only [edit, ht, addValue, ha]
  rw [he]
  refine ⟨rfl, rfl, fun h => h.2.2 v.toBytes List.mem_cons_self ?_⟩
  exact ⟨p, (target_mem ht).1, rfl, v, hv, rfl⟩

/-- Clearing an attribute without values is recorded, and a strict server will refuse it (`noSuchAttribute`). -/
theorem cleared_empty (s : St) (hd : V.Tidy s.attrs) (k key : PyStr) (ht : target U s k = .ok (key, [])) (hc : canRemoveAll s key = none) :
    (edit U s (.clear k)).2 = none ∧ (edit U s (.clear k)).1.journal = s.journal ++ [⟨.delete, key, []⟩] ∧
    ¬ (change ⟨.delete, key, []⟩).Accepted (content s.attrs) := by
  have he : edit U s (.clear k) = ((s.put U key []).record ⟨.delete, key, []⟩, none) := by simp only [edit, ht, clearValues, hc]
  rw [he]
  refine ⟨rfl, rfl, fun h => ?_⟩
  obtain ⟨b, hb⟩ := h.1
  obtain ⟨v, hv, _⟩ := (content_at hd.toNamed (target_mem ht).1 b).mp hb
  cases hv

/-- Emptying an attribute and then clearing it. -/
def emptied : St := (edit asciiTables found (.clear (bytes "mail"))).1

example : target asciiTables emptied (bytes "mail") = .ok (bytes "mail", []) ∧ canRemoveAll emptied (bytes "mail") = none := by decide +kernel

example : target asciiTables found (bytes "mail") = .ok (bytes "mail", [bytes "b@x", bytes "b@y"]) := by decide +kernel

example : ¬ (PyStr.bytes [0xff]).Decodable := by
  intro h
  obtain ⟨l, hl⟩ := PyStr.getStrings_total.mp h
  cases hl

end Verif.C49
