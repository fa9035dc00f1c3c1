import Verif.Model.Tree
import Verif.Props.C21
/-
The attribute values of an entry across a rename.
-/
namespace Verif.Rename
open Verif.Tree Verif.Dn Verif.C21

variable {U : Unicode}

/-- Two attribute types that attribute access takes for the same, as text or as octets. -/
def SameType (U : Unicode) (s t : Str) : Prop :=
  U.lower s = U.lower t ∨ PyStr.lowerBytes (Utf8.encode s) = PyStr.lowerBytes (Utf8.encode t)

theorem find_update {d : Attrs} {k x : PyStr} {f : List PyStr → List PyStr} :
    (d.update U k f).find U x = if x.lower U = k.lower U then (d.find U x).map f else d.find U x := by
  induction d with
  | nil => simp [Attrs.update, Attrs.find]
  | cons p d ih =>
    obtain ⟨k', vs⟩ := p
    simp only [Attrs.update]
    by_cases h1 : k'.lower U = k.lower U
    · rw [if_pos h1]
      simp only [Attrs.find]
      by_cases h2 : x.lower U = k.lower U
      · rw [if_pos h2, if_pos (h1.trans h2.symm), if_pos (h1.trans h2.symm)]; rfl
      · rw [if_neg h2]
        have : k'.lower U ≠ x.lower U := fun e => h2 (e.symm.trans h1)
        rw [if_neg this, if_neg this]
    · rw [if_neg h1]
      simp only [Attrs.find]
      by_cases h3 : k'.lower U = x.lower U
      · rw [if_pos h3, if_pos h3]
        have : x.lower U ≠ k.lower U := fun e => h1 (h3.trans e)
        rw [if_neg this]
      · rw [if_neg h3, if_neg h3, ih]

theorem find_congr {d : Attrs} {k x : PyStr} (h : x.lower U = k.lower U) : d.find U x = d.find U k := by
  induction d with
  | nil => rfl
  | cons p d ih => simp only [Attrs.find, h, ih]

theorem formOf_some {d : Attrs} {ks : List PyStr} {k : PyStr} (h : Entry.formOf U d ks = some k) :
    k ∈ ks ∧ ∃ vs, d.find U k = some vs ∧ Entry.firstOf U d ks = some vs := by
  induction ks with
  | nil => cases h
  | cons a ks ih =>
    simp only [Entry.formOf] at h
    simp only [Entry.firstOf]
    cases hf : d.find U a with
    | some vs =>
      rw [hf] at h
      cases h
      exact ⟨by simp, vs, hf, rfl⟩
    | none =>
      rw [hf] at h
      obtain ⟨h1, vs, h2, h3⟩ := ih h
      exact ⟨by simp [h1], vs, h2, h3⟩

theorem firstOf_update {d : Attrs} {k : PyStr} {vs vs' : List PyStr} (hk : d.find U k = some vs) (ks : List PyStr) :
    Entry.firstOf U (d.update U k fun _ => vs') ks = Entry.firstOf U d ks ∨
      ((∃ x ∈ ks, x.lower U = k.lower U) ∧ Entry.firstOf U d ks = some vs ∧
        Entry.firstOf U (d.update U k fun _ => vs') ks = some vs') := by
  induction ks with
  | nil => exact .inl rfl
  | cons a ks ih =>
    simp only [Entry.firstOf, find_update]
    by_cases h : a.lower U = k.lower U
    · rw [if_pos h, find_congr h, hk]
      exact .inr ⟨⟨a, by simp, h⟩, rfl, rfl⟩
    · rw [if_neg h]
      cases hf : d.find U a with
      | some ws => exact .inl rfl
      | none =>
        rcases ih with ih | ⟨⟨x, hx, e⟩, h1, h2⟩
        · exact .inl ih
        · exact .inr ⟨⟨x, by simp [hx], e⟩, h1, h2⟩

theorem get_text (e : Entry) (s : Str) : e.get U (.text s) = .ok (Entry.firstOf U e.attrs [.text s, .bytes (Utf8.encode s)]) := rfl

theorem sameType_forms {s t : Str} {k x : PyStr} (hx : x ∈ [PyStr.text s, .bytes (Utf8.encode s)])
    (hk : k ∈ [PyStr.text t, .bytes (Utf8.encode t)]) (h : x.lower U = k.lower U) : SameType U s t := by
  simp only [List.mem_cons, List.not_mem_nil, or_false] at hx hk
  rcases hx with rfl | rfl <;> rcases hk with rfl | rfl <;> simp only [PyStr.lower, PyStr.text.injEq, PyStr.bytes.injEq, reduceCtorEq] at h
  · exact .inl h
  · exact .inr h

/-- One changed attribute, seen through any attribute name. -/
theorem changeItem_spec {e e' : Entry} {t : Str} {f : List PyStr → Py (List PyStr)}
    (h : e.changeItem U (.text t) f = (e', none)) :
    ∃ vs vs', f vs = .ok vs' ∧ e'.dn = e.dn ∧ e.get U (.text t) = .ok (some vs) ∧ e'.get U (.text t) = .ok (some vs') ∧
      ∀ s, e'.get U (.text s) = e.get U (.text s) ∨
        (SameType U s t ∧ e.get U (.text s) = .ok (some vs) ∧ e'.get U (.text s) = .ok (some vs')) := by
  simp only [Entry.changeItem, PyStr.getStrings] at h
  cases hk : Entry.formOf U e.attrs [.text t, .bytes (Utf8.encode t)] with
  | none => rw [hk] at h; simp at h
  | some k =>
    rw [hk] at h
    obtain ⟨hmem, vs, hf, hfirst⟩ := formOf_some hk
    simp only [hf, Option.getD_some] at h
    cases hfv : f vs with
    | error x => rw [hfv] at h; simp at h
    | ok vs' =>
      rw [hfv] at h
      simp only [Prod.mk.injEq, and_true] at h
      subst h
      have key : ∀ s, ({ e with attrs := e.attrs.update U k fun _ => vs' } : Entry).get U (.text s) = e.get U (.text s) ∨
          (SameType U s t ∧ e.get U (.text s) = .ok (some vs) ∧
            ({ e with attrs := e.attrs.update U k fun _ => vs' } : Entry).get U (.text s) = .ok (some vs')) := by
        intro s
        rw [get_text, get_text]
        rcases firstOf_update (vs' := vs') hf [.text s, .bytes (Utf8.encode s)] with h | ⟨⟨x, hx, e1⟩, h1, h2⟩
        · left; simp only [h]
        · right
          refine ⟨sameType_forms hx hmem e1, ?_, ?_⟩
          · rw [h1]
          · simp only [h2]
      refine ⟨vs, vs', hfv, rfl, by rw [get_text, hfirst], ?_, key⟩
      -- the attribute itself
      rw [get_text]
      have : ∀ ks, Entry.formOf U e.attrs ks = some k → Entry.firstOf U (e.attrs.update U k fun _ => vs') ks = some vs' := by
        intro ks
        induction ks with
        | nil => intro h; cases h
        | cons a ks ih =>
          intro h
          simp only [Entry.formOf] at h
          simp only [Entry.firstOf, find_update]
          cases ha : e.attrs.find U a with
          | some ws =>
            rw [ha] at h
            cases h
            rw [if_pos rfl]
            rfl
          | none =>
            rw [ha] at h
            by_cases hl : a.lower U = k.lower U
            · rw [find_congr hl, hf] at ha; cases ha
            · rw [if_neg hl]
              exact ih h
      simp only [this _ hk]

/-- The entry has, under attribute type `s`, a value with the octets of the text `x`. -/
def HasValue (U : Unicode) (e : Entry) (s x : Str) : Prop :=
  ∃ vs, e.get U (.text s) = .ok (some vs) ∧ Has vs (Utf8.encode x)

/-- Under attribute type `s`, no two values have the same octets. -/
def NoTwins (U : Unicode) (e : Entry) (s : Str) : Prop := ∀ vs, e.get U (.text s) = .ok (some vs) → Distinct vs

theorem add_text (s : List PyStr) (x : Str) : (Has s (Utf8.encode x) ∧ AttributeSet.add s (.text x) = .ok s) ∨
    (¬ Has s (Utf8.encode x) ∧ AttributeSet.add s (.text x) = .ok (.text x :: s)) :=
  add_cases (v := .text x) ⟨x, rfl⟩

theorem add_ok {s s' : List PyStr} {x : Str} (h : AttributeSet.add s (.text x) = .ok s') :
    s ⊆ s' ∧ Has s' (Utf8.encode x) ∧ (∀ b, Has s' b → b = Utf8.encode x ∨ Has s b) ∧ (Distinct s → Distinct s') := by
  rcases add_text s x with ⟨h1, h2⟩ | ⟨h1, h2⟩
  · rw [h2] at h
    cases h
    exact ⟨fun _ h => h, h1, fun b hb => .inr hb, id⟩
  · rw [h2] at h
    cases h
    refine ⟨fun _ h => by simp [h], ⟨.text x, by simp, rfl⟩, ?_, ?_⟩
    · rintro b ⟨v, hv, rfl⟩
      rcases List.mem_cons.mp hv with rfl | hv
      · exact .inl rfl
      · exact .inr ⟨v, hv, rfl⟩
    · intro hd
      refine List.pairwise_cons.mpr ⟨fun y hy e => h1 ⟨y, hy, e.symm⟩, hd⟩

theorem remove_ok {s s' : List PyStr} {x : Str} (h : AttributeSet.remove s (.text x) = .ok s') :
    s'.Sublist s ∧ (Distinct s → ¬ Has s' (Utf8.encode x)) := by
  simp only [AttributeSet.remove, PyStr.getStrings, bind, Except.bind] at h
  split at h
  · rename_i k hk
    cases h
    obtain ⟨h1, h2⟩ := firstIn_some hk
    have hb : k.toBytes = Utf8.encode x := by
      simp only [List.mem_cons, List.not_mem_nil, or_false] at h2
      rcases h2 with rfl | rfl <;> rfl
    refine ⟨List.erase_sublist, ?_⟩
    rintro hd ⟨v, hv, e⟩
    rw [← hb] at e
    clear hk h2 hb
    induction s with
    | nil => cases h1
    | cons a s ih =>
      obtain ⟨ha, hs⟩ := List.pairwise_cons.mp hd
      by_cases hak : a = k
      · subst hak
        rw [List.erase_cons_head] at hv
        exact ha v hv e.symm
      · rw [List.erase_cons_tail (by simpa using hak)] at hv
        have hks : k ∈ s := by rcases List.mem_cons.mp h1 with rfl | h
                               · exact absurd rfl hak
                               · exact h
        rcases List.mem_cons.mp hv with rfl | hv
        · exact ha k hks e
        · exact ih hks hs hv
  · cases h

/-- Adding keeps what is there. -/
theorem addLoop_keeps {r : Rdn} {e e' : Entry} (h : rdnLoop U (fun v s => AttributeSet.add s v) r e = (e', none)) {s x : Str}
    (hx : HasValue U e s x) : HasValue U e' s x := by
  induction r generalizing e with
  | nil => cases h; exact hx
  | cons a r ih =>
    simp only [rdnLoop] at h
    split at h
    · rename_i e1 hc
      refine ih h ?_
      obtain ⟨vs, vs', hf, _, _, _, hall⟩ := changeItem_spec hc
      obtain ⟨ws, hw, v, hv, hvx⟩ := hx
      rcases hall s with hs | ⟨_, h1, h2⟩
      · exact ⟨ws, hs.trans hw, v, hv, hvx⟩
      · rw [h1] at hw
        cases hw
        exact ⟨vs', h2, v, (add_ok hf).1 hv, hvx⟩
    · simp at h

/-- After the loop that adds, every value of the RDN is there. -/
theorem addLoop_adds {r : Rdn} {e e' : Entry} (h : rdnLoop U (fun v s => AttributeSet.add s v) r e = (e', none)) :
    ∀ a ∈ r, HasValue U e' a.attributeType a.value := by
  induction r generalizing e with
  | nil => intro a ha; cases ha
  | cons a r ih =>
    simp only [rdnLoop] at h
    split at h
    · rename_i e1 hc
      obtain ⟨vs, vs', hf, _, _, h2, _⟩ := changeItem_spec hc
      intro b hb
      rcases List.mem_cons.mp hb with rfl | hb
      · exact addLoop_keeps h ⟨vs', h2, (add_ok hf).2.1⟩
      · exact ih h b hb
    · simp at h

/-- The loop that adds brings nothing but the values of the RDN. -/
theorem addLoop_absent {r : Rdn} {e e' : Entry} (h : rdnLoop U (fun v s => AttributeSet.add s v) r e = (e', none)) {s x : Str}
    (hx : ¬ HasValue U e s x) (hr : ∀ b ∈ r, SameType U s b.attributeType → b.value ≠ x) : ¬ HasValue U e' s x := by
  induction r generalizing e with
  | nil => cases h; exact hx
  | cons a r ih =>
    simp only [rdnLoop] at h
    split at h
    · rename_i e1 hc
      refine ih h ?_ (fun b hb => hr b (by simp [hb]))
      obtain ⟨vs, vs', hf, _, _, _, hall⟩ := changeItem_spec hc
      rintro ⟨ws, hw, hv⟩
      rcases hall s with hs | ⟨hst, h1, h2⟩
      · exact hx ⟨ws, hs ▸ hw, hv⟩
      · rw [h2] at hw
        cases hw
        rcases (add_ok hf).2.2.1 _ hv with e2 | hv
        · have e3 := congrArg Utf8.decode e2
          rw [Utf8.decode_encode, Utf8.decode_encode] at e3
          cases e3
          exact hr a (by simp) hst rfl
        · exact hx ⟨vs, h1, hv⟩
    · simp at h

theorem removeLoop_absent {r : Rdn} {e e' : Entry} (h : rdnLoop U (fun v s => AttributeSet.remove s v) r e = (e', none)) {s x : Str}
    (hx : ¬ HasValue U e s x) : ¬ HasValue U e' s x := by
  induction r generalizing e with
  | nil => cases h; exact hx
  | cons a r ih =>
    simp only [rdnLoop] at h
    split at h
    · rename_i e1 hc
      refine ih h ?_
      obtain ⟨vs, vs', hf, _, _, _, hall⟩ := changeItem_spec hc
      rintro ⟨ws, hw, v, hv, hvx⟩
      rcases hall s with hs | ⟨hst, h1, h2⟩
      · exact hx ⟨ws, hs ▸ hw, v, hv, hvx⟩
      · rw [h2] at hw
        cases hw
        exact hx ⟨vs, h1, v, (remove_ok hf).1.subset hv, hvx⟩
    · simp at h

/-- After the loop that removes, no value of the RDN is left. -/
theorem removeLoop_removes {r : Rdn} {e e' : Entry} (h : rdnLoop U (fun v s => AttributeSet.remove s v) r e = (e', none))
    (hd : ∀ a ∈ r, NoTwins U e a.attributeType) : ∀ a ∈ r, ¬ HasValue U e' a.attributeType a.value := by
  induction r generalizing e with
  | nil => intro a ha; cases ha
  | cons a r ih =>
    simp only [rdnLoop] at h
    split at h
    · rename_i e1 hc
      obtain ⟨vs, vs', hf, _, h1, h2, hall⟩ := changeItem_spec hc
      have hrem := remove_ok hf
      intro b hb
      rcases List.mem_cons.mp hb with rfl | hb
      · refine removeLoop_absent h ?_
        rintro ⟨ws, hw, hv⟩
        rw [h2] at hw
        cases hw
        exact hrem.2 (hd _ (by simp) vs h1) hv
      · refine ih h (fun c hc ws hw => ?_) b hb
        rcases hall c.attributeType with hs | ⟨_, g1, g2⟩
        · exact hd c (by simp [hc]) ws (hs ▸ hw)
        · rw [g2] at hw
          cases hw
          exact (hd c (by simp [hc]) vs g1).sublist hrem.1
    · simp at h

/-- Attributes the RDN does not name are left alone. -/
theorem rdnLoop_other {f : PyStr → List PyStr → Py (List PyStr)} {r : Rdn} {e e' : Entry} (h : rdnLoop U f r e = (e', none)) {s : Str}
    (hs : ∀ a ∈ r, ¬ SameType U s a.attributeType) : e'.get U (.text s) = e.get U (.text s) := by
  induction r generalizing e with
  | nil => cases h; rfl
  | cons a r ih =>
    simp only [rdnLoop] at h
    split at h
    · rename_i e1 hc
      obtain ⟨_, _, _, _, _, _, hall⟩ := changeItem_spec hc
      rw [ih h (fun b hb => hs b (by simp [hb]))]
      rcases hall s with h1 | ⟨h1, _⟩
      · exact h1
      · exact absurd h1 (hs a (by simp))
    · simp at h

/-- The entry after a successful move. -/
theorem move2_entry {h h' : Heap} {i : Nat} {np : Option Nat} {newDN : Dn.Dn} {n : Node} (hn : h[i]? = some n)
    (hm : move2 U h i np newDN = (h', none)) :
    ∃ old d new d' e1 e2 n', n.entry.dn = old :: d ∧ newDN = new :: d' ∧
      rdnLoop U (fun v s => AttributeSet.remove s v) old n.entry = (e1, none) ∧
      rdnLoop U (fun v s => AttributeSet.add s v) new e1 = (e2, none) ∧
      h'[i]? = some n' ∧ n'.entry = { e2 with dn := newDN } := by
  have tail : ∀ h1 : Heap, ∀ n1 : Node, h1[i]? = some n1 → n1.entry = n.entry →
      (match n1.entry.dn, newDN with
        | [], _ => (h1, some PyErr.indexError)
        | old :: _, [] =>
          match rdnLoop U (fun v s => AttributeSet.remove s v) old n1.entry with
          | (e, x) => (h1.set i { n1 with entry := e }, some (x.getD .indexError))
        | old :: _, new :: _ =>
          match rdnLoop U (fun v s => AttributeSet.remove s v) old n1.entry with
          | (e, some x) => (h1.set i { n1 with entry := e }, some x)
          | (e, none) =>
            match rdnLoop U (fun v s => AttributeSet.add s v) new e with
            | (e, some x) => (h1.set i { n1 with entry := e }, some x)
            | (e, none) => (h1.set i { n1 with entry := { e with dn := newDN } }, none)) = (h', none) →
      ∃ old d new d' e1 e2 n', n.entry.dn = old :: d ∧ newDN = new :: d' ∧
        rdnLoop U (fun v s => AttributeSet.remove s v) old n.entry = (e1, none) ∧
        rdnLoop U (fun v s => AttributeSet.add s v) new e1 = (e2, none) ∧
        h'[i]? = some n' ∧ n'.entry = { e2 with dn := newDN } := by
    intro h1 n1 hn1 he hm
    rw [he] at hm
    cases hdn : n.entry.dn with
    | nil => rw [hdn] at hm; simp at hm
    | cons old d =>
      rw [hdn] at hm
      cases newDN with
      | nil => simp at hm
      | cons new d' =>
        simp only at hm
        split at hm
        · simp at hm
        · rename_i e1 hr1
          split at hm
          · simp at hm
          · rename_i e2 hr2
            simp only [Prod.mk.injEq, and_true] at hm
            refine ⟨old, d, new, d', e1, e2, { n1 with entry := { e2 with dn := new :: d' } }, rfl, rfl, hr1, hr2, ?_, rfl⟩
            rw [← hm, List.getElem?_set, if_pos rfl, if_pos (List.getElem?_eq_some_iff.mp hn1).1]
  simp only [move2, hn] at hm
  cases np with
  | none =>
    simp only [hn] at hm
    exact tail h n hn rfl hm
  | some np =>
    cases newDN with
    | nil => simp at hm
    | cons r d =>
      cases hq : h[np]? with
      | none => simp [hq] at hm
      | some q =>
        simp only [hq] at hm
        have step : ∀ (g : Heap) (j : Nat) (m : Node) (cs : List (Str × Nat)) (n1 : Node), g[j]? = some m → g[i]? = some n1 →
            n1.entry = n.entry → ∃ n2, (g.set j { m with children := cs })[i]? = some n2 ∧ n2.entry = n.entry := by
          intro g j m cs n1 hm1 hi he
          by_cases hji : j = i
          · subst hji
            rw [hm1] at hi
            cases hi
            refine ⟨{ m with children := cs }, ?_, he⟩
            rw [List.getElem?_set, if_pos rfl, if_pos (List.getElem?_eq_some_iff.mp hm1).1]
          · exact ⟨n1, by rw [List.getElem?_set, if_neg hji, hi], he⟩
        cases hp : n.parent with
        | none => simp [hp] at hm
        | some p =>
          simp only [hp] at hm
          cases ho : n.entry.dn with
          | nil => simp [ho] at hm
          | cons old d2 =>
            simp only [ho] at hm
            obtain ⟨n1, hn1, he1⟩ := step h np q (setKey r.text i q.children) n hq hn rfl
            cases hpn : (h.set np { q with children := setKey r.text i q.children })[p]? with
            | none => simp [hpn] at hm
            | some pn =>
              simp only [hpn] at hm
              by_cases hk : old.text ∈ pn.children.map (·.1)
              · simp only [if_pos hk] at hm
                obtain ⟨n2, hn2, he2⟩ := step _ p pn (pn.children.filter (fun x => x.1 ≠ old.text)) n1 hpn hn1 he1
                rw [hn2] at hm
                rw [← ho]
                exact tail _ n2 hn2 he2 hm
              · simp [if_neg hk] at hm

theorem move_entry {h h' : Heap} {i : Nat} {newDN : Dn.Dn} {n : Node} (hn : h[i]? = some n)
    (hm : move U h i newDN = (h', none)) :
    ∃ old d new d' e1 e2 n', n.entry.dn = old :: d ∧ newDN = new :: d' ∧
      rdnLoop U (fun v s => AttributeSet.remove s v) old n.entry = (e1, none) ∧
      rdnLoop U (fun v s => AttributeSet.add s v) new e1 = (e2, none) ∧
      h'[i]? = some n' ∧ n'.entry = { e2 with dn := newDN } := by
  unfold move at hm
  split at hm
  · split at hm
    · simp at hm
    · split at hm
      · simp at hm
      · exact move2_entry hn hm
  · exact move2_entry hn hm

end Verif.Rename
