import Verif.Lemmas.LdifChange
import Verif.Spec.Rfc2849
/-
C69  What is written as LDIF follows the grammar of RFC 2849.

The code violates it for the first line of entries: `asLDIF` writes the DN as it is, without base64 (`dn_not_encoded`), and for
entries without values (`no_attributes`).  Attribute lines and the other change records do follow it.
-/
namespace Verif.C69
open Verif.Ldif Verif.Spec Verif.Spec.Rfc2849
open Verif.Server (ascii Env)

/-- A decidable property of all octets. -/
theorem every {P : UInt8 → Prop} (h : ∀ n : Fin 256, P (UInt8.ofFin n)) (c : UInt8) : P c := h c.toFin

theorem digit_char : ∀ n, n < 64 → Base64Char (Base64.digit n) := by
  unfold Base64Char; decide

theorem encode_chars (v : Bytes) : ∀ c ∈ Base64.encode v, Base64Char c := by
  intro c hc
  rcases Base64.encode_alphabet v c hc with ⟨n, hn, rfl⟩ | rfl
  · exact digit_char n hn
  · right; right; right; left; rfl

theorem prefix_head {c : UInt8} {v : Bytes} : [c].isPrefixOf v = false ↔ v.head? ≠ some c := by
  cases v with
  | nil => simp [List.isPrefixOf]
  | cons b v => simp [List.isPrefixOf]; exact ⟨fun h e => h e.symm, fun h e => h e.symm⟩

theorem suffix_last {c : UInt8} {v : Bytes} : [c].isSuffixOf v = false ↔ v.getLast? ≠ some c := by
  unfold List.isSuffixOf
  rw [List.reverse_singleton, prefix_head, List.head?_reverse]

theorem needsBase64_iff (v : Bytes) : needsBase64 v = false ↔ SafeString v ∧ v.getLast? ≠ some 32 := by
  have hmem : ∀ {c : UInt8}, v.head? = some c → c ∈ v := fun h => List.mem_of_head? h
  simp only [needsBase64, Bool.or_eq_false_iff, prefix_head, suffix_last, containsNonprintable, List.any_eq_false]
  have hc : ∀ c : UInt8, ¬ (decide (127 < c) || decide (c = 0) || decide (c = 10) || decide (c = 13)) = true ↔
      (1 ≤ c ∧ c ≤ 127 ∧ c ≠ 10 ∧ c ≠ 13) := every (by decide +kernel)
  constructor
  · rintro ⟨⟨⟨⟨⟨⟨⟨h0, h1⟩, h2⟩, h3⟩, h4⟩, h5⟩, h6⟩, h7⟩
    exact ⟨⟨fun c hm => (hc c).mp (h7 c hm), h3, h4, h5⟩, h6⟩
  · rintro ⟨⟨h1, h2, h3, h4⟩, h5⟩
    have h7 : ∀ c ∈ v, ¬ (decide (127 < c) || decide (c = 0) || decide (c = 10) || decide (c = 13)) = true := fun c hm => (hc c).mpr (h1 c hm)
    refine ⟨⟨⟨⟨⟨⟨⟨fun h => ?_, fun h => ?_⟩, fun h => ?_⟩, h2⟩, h3⟩, h4⟩, h5⟩, h7⟩
    · exact absurd (h7 0 (hmem h)) (by decide)
    · exact absurd (h7 10 (hmem h)) (by decide)
    · exact absurd (h7 13 (hmem h)) (by decide)

/-- The plain form is used exactly for safe strings that do not end with a space. -/
theorem plain_iff (a v : PyStr) :
    (SafeString v.toBytes ∧ v.toBytes.getLast? ≠ some 32 → attributeAsLDIF a v = a.toBytes ++ ([58, 32] ++ v.toBytes ++ [10])) ∧
      (¬ (SafeString v.toBytes ∧ v.toBytes.getLast? ≠ some 32) →
        ∃ s, attributeAsLDIF a v = a.toBytes ++ ([58, 58, 32] ++ s ++ [10]) ∧ (∀ c ∈ s, Base64Char c) ∧ Base64.decodebytes s = .ok v.toBytes) := by
  have key : needsBase64 v.toBytes = false ↔ SafeString v.toBytes ∧ v.toBytes.getLast? ≠ some 32 := by
    exact needsBase64_iff v.toBytes
  rw [attributeAsLDIF_eq, lineOf, ← key]
  constructor
  · intro h; rw [if_neg (by rw [h]; decide)]; simp
  · intro h
    rw [if_pos (by simpa using h)]
    exact ⟨Base64.encode v.toBytes, by simp, encode_chars _, decode_encode _⟩

theorem valueSpec (v : Bytes) : ∃ r, ValueSpec r ∧ ∀ a, lineOf a v ++ [10] = a ++ r := by
  unfold lineOf
  by_cases h : needsBase64 v = true
  · exact ⟨_, .base64 _ (encode_chars v), fun a => by rw [if_pos h]; simp⟩
  · have h' : needsBase64 v = false := by simpa using h
    exact ⟨_, .plain _ ((needsBase64_iff v).mp h').1, fun a => by rw [if_neg h]; simp⟩

/-- Every attribute line follows the grammar, whatever the value is. -/
theorem attribute_line (a v : PyStr) (ha : AttributeDescription a.toBytes) : AttrvalSpec (attributeAsLDIF a v) := by
  obtain ⟨r, h1, h2⟩ := valueSpec v.toBytes
  rw [attributeAsLDIF_eq, h2]
  exact .line _ _ ha h1

theorem dn_line (d : Dn.Dn) : DnSpec (attributeAsLDIF (.text "dn".toList) (.text d.text)) := by
  obtain ⟨r, h1, h2⟩ := valueSpec (PyStr.toBytes (.text d.text))
  have e : PyStr.toBytes (.text "dn".toList) = [100, 110] := by decide +kernel
  rw [attributeAsLDIF_eq, h2, e]
  exact .line _ h1

/-- Delete records, for every DN. -/
theorem delete_record (d : Dn.Dn) : ChangeRecord (deleteAsLDIF d) := by
  have e : attributeAsLDIF (.text "changetype".toList) (.text "delete".toList) = changetype [100, 101, 108, 101, 116, 101] := by decide +kernel
  unfold deleteAsLDIF
  rw [e]
  exact .delete _ (dn_line d)

theorem name_plain {a : Bytes} (h : AttributeDescription a) : needsBase64 a = false := by
  have hc : ∀ c : UInt8, NameChar c → 1 ≤ c ∧ c ≤ 127 ∧ c ≠ 10 ∧ c ≠ 13 ∧ c ≠ 32 ∧ c ≠ 58 ∧ c ≠ 60 := by
    unfold NameChar; exact every (by decide +kernel)
  refine (needsBase64_iff a).mpr ⟨⟨fun c hm => ?_, ?_, ?_, ?_⟩, ?_⟩
  · have := hc c (h.chars c hm); exact ⟨this.1, this.2.1, this.2.2.1, this.2.2.2.1⟩
  · exact fun e => (hc _ (h.chars _ (List.mem_of_head? e))).2.2.2.2.1 rfl
  · exact fun e => (hc _ (h.chars _ (List.mem_of_head? e))).2.2.2.2.2.1 rfl
  · exact fun e => (hc _ (h.chars _ (List.mem_of_head? e))).2.2.2.2.2.2 rfl
  · exact fun e => (hc _ (h.chars _ (List.mem_of_getLast? e))).2.2.2.2.1 rfl

theorem mod_spec {m : Mod} (h : AttributeDescription m.key.toBytes) {t : Bytes} (ht : modAsLDIF m = .ok t) : ModSpec t := by
  simp only [modAsLDIF, bind, Except.bind] at ht
  split at ht
  · cases ht
  · rename_i vs _
    simp only [pure, Except.pure, Except.ok.injEq] at ht
    subst ht
    have e : attributeAsLDIF (modName m.kind) m.key = (modName m.kind).toBytes ++ [58, 32] ++ m.key.toBytes ++ [10] := by
      rw [attributeAsLDIF_eq, lineOf, if_neg (by rw [name_plain h]; decide)]
    have e2 : vs.flatMap (fun v => attributeAsLDIF m.key v) = (vs.map fun v => attributeAsLDIF m.key v).flatten := List.flatMap_def
    rw [e, e2]
    refine .spec _ _ _ ?_ h ?_
    · cases m.kind
      · left; decide +kernel
      · right; left; decide +kernel
      · right; right; decide +kernel
    · intro x hx
      obtain ⟨v, _, rfl⟩ := List.mem_map.mp hx
      exact attribute_line _ v h

/-- Modify records, for every DN and every value, if the names are attribute descriptions. -/
theorem modify_record (d : Dn.Dn) (ms : List Mod) (h : ∀ m ∈ ms, AttributeDescription m.key.toBytes) (t : Bytes)
    (ht : modifyAsLDIF d ms = .ok t) : ChangeRecord t := by
  have key : ∀ (ms : List Mod) (t : Bytes), (∀ m ∈ ms, AttributeDescription m.key.toBytes) → modsAsLDIF ms = .ok t →
      ∃ l : List Bytes, t = l.flatten ∧ ∀ m ∈ l, ModSpec m := by
    intro ms
    induction ms with
    | nil => intro t _ ht; cases ht; exact ⟨[], rfl, by simp⟩
    | cons m ms ih =>
      intro t h ht
      simp only [modsAsLDIF, bind, Except.bind] at ht
      split at ht
      · cases ht
      · rename_i b hb
        split at ht
        · cases ht
        · rename_i r hr
          cases ht
          obtain ⟨l, rfl, hl⟩ := ih r (fun x hx => h x (List.mem_cons_of_mem _ hx)) hr
          refine ⟨b :: l, by simp, ?_⟩
          intro x hx
          rcases List.mem_cons.mp hx with rfl | hx
          · exact mod_spec (h m List.mem_cons_self) hb
          · exact hl x hx
  simp only [modifyAsLDIF, bind, Except.bind] at ht
  split at ht
  · cases ht
  · rename_i b hb
    cases ht
    obtain ⟨l, rfl, hl⟩ := key ms b h hb
    have e : attributeAsLDIF (.text "changetype".toList) (.text "modify".toList) = changetype [109, 111, 100, 105, 102, 121] := by decide +kernel
    rw [e]
    exact .modify _ _ (dn_line d) hl

/-- Entries with a DN that is a safe string, at least one value, and attribute descriptions for names. -/
theorem content_record_partial (env : Env) (hU : Sane env.U) (e : Entry) (he : Writable e)
    (hn : ∀ k vs, (k, vs) ∈ e.attrs → AttributeDescription k.toBytes) (hd : SafeString (Utf8.encode e.dn.text))
    (hv : ∃ a b, HasValue e a b) : ∃ t, toWire env e = .ok t ∧ ContentRecord t := by
  obtain ⟨w, h1, h2, h3⟩ := wireItems_full hU he
  refine ⟨_, by simp only [toWire, h1, bind, Except.bind, pure, Except.pure]; rfl, ?_⟩
  have hname : ∀ p ∈ w, AttributeDescription p.1.toBytes := by
    intro p hp
    rcases h2 p hp with h | ⟨vs, h⟩
    · rw [h]
      have e1 : ascii "objectClass" = [111, 98, 106, 101, 99, 116, 67, 108, 97, 115, 115] := by decide +kernel
      rw [e1]
      exact ⟨by unfold NameChar; decide, 111, rfl, by decide, by decide, by decide⟩
    · exact hn _ vs h
  have e1 : w.flatMap (fun p => p.2.flatMap fun v => attributeAsLDIF p.1 v) =
      (w.flatMap fun p => p.2.map fun v => attributeAsLDIF p.1 v).flatten := by
    rw [← List.flatMap_id, List.flatMap_assoc]
    congr 1
    funext p
    rw [List.flatMap_id, List.flatMap_def]
  have e2 : ascii "dn: " = [100, 110, 58, 32] := by decide +kernel
  have e3 : asLDIF (.text e.dn.text) w = ([100, 110] ++ ([58, 32] ++ Utf8.encode e.dn.text ++ [10])) ++
      (w.flatMap fun p => p.2.map fun v => attributeAsLDIF p.1 v).flatten ++ [10] := by
    rw [asLDIF, e1, e2]; rfl
  rw [e3]
  refine .record _ _ (.line _ (.plain _ hd)) ?_ ?_
  · obtain ⟨a, b, h⟩ := hv
    obtain ⟨v, ⟨p, hp, _, hm⟩, _⟩ := (hasValue_iff (dn := e.dn)).mp h
    obtain ⟨q, hq, _, hm'⟩ := (h3 p.1 v).mpr ⟨p, hp, rfl, hm⟩
    exact List.ne_nil_of_mem (List.mem_flatMap.mpr ⟨q, hq, List.mem_map.mpr ⟨v, hm', rfl⟩⟩)
  · intro x hx
    obtain ⟨p, hp, hx⟩ := List.mem_flatMap.mp hx
    obtain ⟨v, _, rfl⟩ := List.mem_map.mp hx
    exact attribute_line _ v (hname p hp)

/-- Add records, under the same conditions. -/
theorem add_record_partial (env : Env) (hU : Sane env.U) (e : Entry) (he : Writable e)
    (hn : ∀ k vs, (k, vs) ∈ e.attrs → AttributeDescription k.toBytes) (hd : SafeString (Utf8.encode e.dn.text))
    (hv : ∃ a b, HasValue e a b) : ∃ t, addAsLDIF env e = .ok t ∧ ChangeRecord t := by
  obtain ⟨w, h1, h2, h3⟩ := wireItems_full hU he
  have hc : ∀ c : UInt8, NameChar c → c ≠ 13 := by unfold NameChar; exact every (by decide +kernel)
  have hname : ∀ p ∈ w, AttributeDescription p.1.toBytes ∧ LdifName p.1.toBytes ∧ 13 ∉ p.1.toBytes := by
    intro p hp
    rcases h2 p hp with h | ⟨vs, h⟩
    · rw [h]
      refine ⟨?_, className_fit⟩
      have e1 : ascii "objectClass" = [111, 98, 106, 101, 99, 116, 67, 108, 97, 115, 115] := by decide +kernel
      rw [e1]
      exact ⟨by unfold NameChar; decide, 111, rfl, by decide, by decide, by decide⟩
    · exact ⟨hn _ vs h, he.names _ vs h, fun hm => hc 13 ((hn _ vs h).chars 13 hm) rfl⟩
  refine ⟨_, addAsLDIF_eq h1 fun p hp => (hname p hp).2, ?_⟩
  have e2 : ascii "dn: " = [100, 110, 58, 32] := by decide +kernel
  have e3 : lineOf (ascii "changetype") (ascii "add") ++ [10] = changetype [97, 100, 100] := by decide +kernel
  have e4 : unlines (addLines e w) = ([100, 110] ++ ([58, 32] ++ Utf8.encode e.dn.text ++ [10])) ++ changetype [97, 100, 100] ++
      ((pairs w).map fun x => lineOf x.1 x.2 ++ [10]).flatten ++ [10] := by
    rw [← e3, addLines, e2]
    simp [unlines, List.flatMap_def, Function.comp_def]
  rw [e4]
  refine .add _ _ (.line _ (.plain _ hd)) ?_ ?_
  · obtain ⟨a, b, h⟩ := hv
    obtain ⟨v, hu, e'⟩ := (hasValue_iff (dn := e.dn)).mp h
    obtain ⟨x, hx, _⟩ := (under_pairs (w := w)).mpr ⟨v, (h3 _ v).mpr hu, e'⟩
    exact List.ne_nil_of_mem (List.mem_map.mpr ⟨x, hx, rfl⟩)
  · intro y hy
    obtain ⟨x, hx, rfl⟩ := List.mem_map.mp hy
    obtain ⟨p, hp, e', _⟩ := mem_pairs.mp hx
    obtain ⟨r, k1, k2⟩ := valueSpec x.2
    rw [k2, ← e']
    exact .line _ _ (hname p hp).1 k1

/-! What it does not do. -/

theorem valueSpec_ascii {r : Bytes} (h : ValueSpec r) : (∀ c ∈ r, c ≤ 127) ∧ 10 ∈ r := by
  have hb : ∀ c : UInt8, Base64Char c → c ≤ 127 := by unfold Base64Char; exact every (by decide +kernel)
  cases h with
  | plain v hv =>
    refine ⟨fun c hc => ?_, by simp⟩
    simp only [List.mem_append, List.mem_cons, List.not_mem_nil, or_false] at hc
    rcases hc with ((rfl | rfl) | hc) | rfl
    · decide
    · decide
    · exact (hv.chars c hc).2.1
    · decide
  | base64 v hv =>
    refine ⟨fun c hc => ?_, by simp⟩
    simp only [List.mem_append, List.mem_cons, List.not_mem_nil, or_false] at hc
    rcases hc with ((rfl | rfl | rfl) | hc) | rfl
    · decide
    · decide
    · decide
    · exact hb c (hv c hc)
    · decide

theorem attrval_ascii {r : Bytes} (h : AttrvalSpec r) : (∀ c ∈ r, c ≤ 127) ∧ 10 ∈ r := by
  have hn : ∀ c : UInt8, NameChar c → c ≤ 127 := by unfold NameChar; exact every (by decide +kernel)
  cases h with
  | line a r ha hr =>
    obtain ⟨h1, h2⟩ := valueSpec_ascii hr
    refine ⟨fun c hc => ?_, List.mem_append_right _ h2⟩
    rcases List.mem_append.mp hc with hc | hc
    · exact hn c (ha.chars c hc)
    · exact h1 c hc

theorem content_ascii {t : Bytes} (h : ContentRecord t) : (∀ c ∈ t, c ≤ 127) ∧ 3 ≤ t.count 10 := by
  cases h with
  | record dn attrs hd hne ha =>
    have hdn : (∀ c ∈ dn, c ≤ 127) ∧ 10 ∈ dn := by
      cases hd with
      | line r hr =>
        obtain ⟨h1, h2⟩ := valueSpec_ascii hr
        refine ⟨fun c hc => ?_, List.mem_append_right _ h2⟩
        simp only [List.mem_append, List.mem_cons, List.not_mem_nil, or_false] at hc
        rcases hc with (rfl | rfl) | hc
        · decide
        · decide
        · exact h1 c hc
    refine ⟨fun c hc => ?_, ?_⟩
    · simp only [List.mem_append, List.mem_cons, List.not_mem_nil, or_false, List.mem_flatten] at hc
      rcases hc with (hc | ⟨l, hl, hc⟩) | rfl
      · exact hdn.1 c hc
      · exact (attrval_ascii (ha l hl)).1 c hc
      · decide
    · obtain ⟨l, hl⟩ := List.exists_mem_of_ne_nil _ hne
      have h1 := List.count_pos_iff.mpr hdn.2
      have h2 : 0 < attrs.flatten.count 10 := List.count_pos_iff.mpr (List.mem_flatten.mpr ⟨l, hl, (attrval_ascii (ha l hl)).2⟩)
      rw [List.count_append, List.count_append]
      have h3 : List.count (10 : UInt8) [10] = 1 := rfl
      omega

def env : Env := ⟨asciiTables, fun b => b, true, true⟩

/-- An entry with an `é` in its DN. -/
def accented : Entry := ⟨[[⟨"cn".toList, "é".toList⟩]], [(.text "cn".toList, [.text "e".toList])]⟩

theorem accented_writable : Writable accented := by
  refine ⟨⟨?_, by simp [accented]⟩, ?_, ?_, by decide +kernel, by decide +kernel⟩
  · intro k vs h
    simp only [accented, List.mem_cons, List.not_mem_nil, or_false, Prod.mk.injEq] at h
    obtain ⟨rfl, _⟩ := h; decide +kernel
  · intro k vs h
    simp only [accented, List.mem_cons, List.not_mem_nil, or_false, Prod.mk.injEq] at h
    obtain ⟨rfl, _⟩ := h
    exact ⟨by decide +kernel, by decide +kernel, by decide +kernel, by decide +kernel⟩
  · intro k vs h
    simp only [accented, List.mem_cons, List.not_mem_nil, or_false, Prod.mk.injEq] at h
    obtain ⟨_, rfl⟩ := h
    simp [OneKind, PyStr.isText]

/-- The DN of an entry is never encoded: with a character outside ASCII the record has an octet above 127, which the grammar
does not allow anywhere. -/
theorem dn_not_encoded : Writable accented ∧ (∃ a b, HasValue accented a b) ∧
    ∃ t, toWire env accented = .ok t ∧ ¬ ContentRecord t := by
  refine ⟨accented_writable, ⟨.text "cn".toList, _, _, _, ⟨_, List.mem_cons_self, rfl⟩, List.mem_cons_self, rfl⟩,
    ascii "dn: cn=é\ncn: e\n\n", by decide +kernel, fun h => ?_⟩
  have : ¬ ∀ c ∈ ascii "dn: cn=é\ncn: e\n\n", c ≤ 127 := by decide +kernel
  exact this (content_ascii h).1

/-- An entry without values is written as a lone DN, which is no record. -/
theorem no_attributes : ∃ t, toWire env ⟨[[⟨"cn".toList, "a".toList⟩]], []⟩ = .ok t ∧ ¬ ContentRecord t := by
  refine ⟨ascii "dn: cn=a\n\n", by decide +kernel, fun h => ?_⟩
  have : ¬ 3 ≤ (ascii "dn: cn=a\n\n").count 10 := by decide +kernel
  exact this (content_ascii h).2

/-- Names and a DN that meet the conditions. -/
example : AttributeDescription (PyStr.toBytes (.text "cn".toList)) ∧ SafeString (Utf8.encode (Dn.Dn.text [[⟨"cn".toList, " a\n".toList⟩]])) := by
  have e : PyStr.toBytes (.text "cn".toList) = [99, 110] := by decide +kernel
  rw [e]
  exact ⟨⟨by unfold NameChar; decide, 99, rfl, by decide, by decide, by decide⟩, ⟨by decide +kernel, by decide +kernel⟩⟩

end Verif.C69
