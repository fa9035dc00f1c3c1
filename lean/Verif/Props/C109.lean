import Verif.Model.Members
import Verif.Spec.Members
import Verif.Props.C12
/-
C109  Members, hashes and order of entries and of the parts of their names.

Full statement: an entry has a member exactly if one of the values of its attribute `member` is a text of a DN equal to it, in
text or octets; equal entries have equal hashes; of two different entries, RDNs or pairs one is less than the other, and then
and only then the other is greater.  Proved: members are those whose own text is among the values (`member_iff`), hence every
member found is one (`member_sound`), and those in canonical case are found (`member_found_partial`); entries in canonical case that
are equal have equal hashes (`hash_partial`); entries and RDNs are ordered (`entry_order`, `rdn_order`).  Missing: a member written
with other letters (`member_case`) or asked for as text where the values are octets (`octets_not_text`); equal entries with other
letters in their names (`hash_differs`); `>` and `<=` of pairs, which end only for equal ones (`pair_gt`).
-/
namespace Verif.C109
open Verif.Dn Verif.Members Verif.Spec Verif.Spec.Members

theorem has_iff (U : Unicode) (e : Entry) (a : Arg) :
    ∃ r, hasMember U e a = .ok r ∧ (r = true ↔ ∃ v, Member U e v ∧ same v a = true) := by
  unfold hasMember Entry.get Member
  generalize "member".toList = m
  simp only [PyStr.getStrings, bind, Except.bind, pure, Except.pure, Except.ok.injEq, exists_eq_left']
  unfold Entry.firstOf
  cases h1 : e.attrs.find U (.text m) with
  | some vs => simp [List.any_eq_true]
  | none =>
    unfold Entry.firstOf
    cases h2 : e.attrs.find U (.bytes (Utf8.encode m)) with
    | some vs => simp [List.any_eq_true]
    | none => simp [Entry.firstOf]

/-- An entry has a member exactly if a value is the text of the DN, as text or as octets; nothing raises. -/
theorem member_iff (U : Unicode) (e : Entry) (d : Dn) :
    ∃ r, hasMember U e (.dn d) = .ok r ∧ (r = true ↔ ∃ v, Member U e v ∧ Written v d.text) := by
  obtain ⟨r, h1, h2⟩ := has_iff U e (.dn d)
  refine ⟨r, h1, h2.trans ?_⟩
  refine exists_congr fun v => and_congr_right fun _ => ?_
  cases v with
  | text s => simp only [same, Dn.eqText, Written, beq_iff_eq, PyStr.text.injEq, reduceCtorEq, or_false]; exact eq_comm
  | bytes b => simp only [same, Written, beq_iff_eq, PyStr.bytes.injEq, reduceCtorEq, false_or]; exact eq_comm

/-- Asked for a text or octets, only the same kind counts. -/
theorem member_string_iff (U : Unicode) (e : Entry) (s : PyStr) :
    ∃ r, hasMember U e (.str s) = .ok r ∧ (r = true ↔ Member U e s) := by
  obtain ⟨r, h1, h2⟩ := has_iff U e (.str s)
  exact ⟨r, h1, h2.trans (by simp [same])⟩

/-- A member that is found is one: a value is a text that is read as the DN. -/
theorem member_sound (U : Unicode) (e : Entry) (d : Dn) (hd : d.Good) (h : hasMember U e (.dn d) = .ok true) :
    ∃ v s, Member U e v ∧ Written v s ∧ Dn.parse U s = .ok d := by
  obtain ⟨r, h1, h2⟩ := member_iff U e d
  rw [h] at h1
  cases h1
  obtain ⟨v, h3, h4⟩ := h2.mp rfl
  exact ⟨v, d.text, h3, h4, Dn.parse_text U d hd⟩

/-- A member in canonical case is found if the value is a text that the library writes. -/
theorem member_found_partial (U : Unicode) (e : Entry) (d d' : Dn) (hd : CanonicalCase U d) (hd' : CanonicalCase U d') (he : Dn.eq U d' d = true)
    (v : PyStr) (hv : Member U e v) (hw : Written v d'.text) : hasMember U e (.dn d) = .ok true := by
  obtain ⟨r, h1, h2⟩ := member_iff U e d
  rw [h1, h2.mpr ⟨v, hv, by rw [← C12.foldDn_inj hd' hd ((Dn.eq_iff U d' d).mp he)]; exact hw⟩]

/-- Entries that are equal have equal hashes if their names are in canonical case. -/
theorem hash_partial (U : Unicode) {α : Type} (hash : Str → α) (a b : Entry) (ha : CanonicalCase U a.dn) (hb : CanonicalCase U b.dn)
    (h : Delta.entryEq U a b = .ok true) : entryHash hash a = entryHash hash b := by
  unfold Delta.entryEq at h
  split at h
  · cases h
  · rename_i he
    refine C12.equal_hash_partial U hash a.dn b.dn ha hb ?_
    simpa using he

/-- Of two entries with different names one is less than the other, and `>` is `<` with its sides exchanged. -/
theorem entry_order (U : Unicode) (a b : Entry) :
    entryGt U a b = entryLt U b a ∧
    (Dn.eq U a.dn b.dn = true → entryLt U a b = false ∧ entryGt U a b = false) ∧
    (Dn.eq U a.dn b.dn = false → (entryLt U a b = true ∧ entryGt U a b = false) ∨ (entryLt U a b = false ∧ entryGt U a b = true)) := by
  have t := Dn.trich U
  refine ⟨rfl, ?_, ?_⟩
  · intro h
    exact ⟨tupleLt_of_eq _ _ h, tupleLt_of_eq _ _ (by rw [t.symm] at h; exact h)⟩
  · intro h
    have := t.total _ _ h
    unfold entryLt entryGt
    rw [this]
    cases Dn.lt U b.dn a.dn <;> simp

/-- The comparisons of RDNs agree with each other. -/
theorem rdn_order (U : Unicode) (a b : Rdn) :
    rdnGt U a b = Rdn.lt U b a ∧ (rdnGe U a b = true ↔ rdnGt U a b = true ∨ Rdn.eq U a b = true) ∧
    (rdnLe U a b = true ↔ Rdn.lt U a b = true ∨ Rdn.eq U a b = true) := by
  have t : Trich (Rdn.eq U) (Rdn.lt U) := (Ava.trich U).tuple
  have hs := t.symm a b
  have ht := t.total a b
  have he : Rdn.eq U a b = true → Rdn.lt U a b = false ∧ Rdn.lt U b a = false := fun h =>
    ⟨tupleLt_of_eq a b h, tupleLt_of_eq b a (by rw [hs] at h; exact h)⟩
  unfold rdnLe rdnGt rdnGe
  cases h1 : Rdn.eq U a b with
  | true =>
    obtain ⟨h2, h3⟩ := he h1
    simp [h2, h3]
  | false =>
    rw [ht h1]
    cases Rdn.lt U b a <;> simp

/-! ### Where the full statement fails -/

/-- Whatever the depth, different pairs cannot be compared with `>` and `<=`; equal ones can. -/
theorem pair_gt (U : Unicode) (depth : Nat) (a b : Ava) :
    (Ava.eq U a b = false → pairGt U depth a b = none ∧ pairLe U depth a b = none) ∧
    (Ava.eq U a b = true → pairGt U (depth + 1) a b = some false ∧ pairLe U (depth + 1) a b = some true) := by
  constructor
  · intro h
    have : pairGt U depth a b = none := by
      induction depth with
      | zero => rfl
      | succ n ih => unfold pairGt; simp [h, ih]
    exact ⟨this, by unfold pairLe; rw [this]; rfl⟩
  · intro h
    have : pairGt U (depth + 1) a b = some false := by unfold pairGt; simp [h]
    exact ⟨this, by unfold pairLe; rw [this]; rfl⟩

/-- What `>=` of pairs says for equal ones in other letters: it can be false. -/
theorem pair_ge : Ava.eq asciiTables ⟨"CN".toList, "a".toList⟩ ⟨"cn".toList, "a".toList⟩ = true ∧
    pairGe ⟨"CN".toList, "a".toList⟩ ⟨"cn".toList, "a".toList⟩ = false := by decide +kernel

def groupOf (v : PyStr) : Entry := ⟨[[⟨"cn".toList, "g".toList⟩]], [(.text "member".toList, [v])]⟩

def ann : Dn := [[⟨"cn".toList, "ann".toList⟩], [⟨"dc".toList, "x".toList⟩]]

/-- A member written with other letters, or with a blank after the comma, is not found, although its DN is equal. -/
theorem member_case : ∀ s ∈ ["CN=ann,dc=x".toList, "cn=ann, dc=x".toList],
    (∃ d, Dn.parse asciiTables s = .ok d ∧ Dn.eq asciiTables d ann = true) ∧ hasMember asciiTables (groupOf (.text s)) (.dn ann) = .ok false := by
  have h : ∀ s ∈ ["CN=ann,dc=x".toList, "cn=ann, dc=x".toList],
      (match Dn.parse asciiTables s with | .ok d => Dn.eq asciiTables d ann | .error _ => false) = true ∧
      hasMember asciiTables (groupOf (.text s)) (.dn ann) = .ok false := by decide +kernel
  intro s hs
  obtain ⟨h1, h2⟩ := h s hs
  cases hp : Dn.parse asciiTables s with
  | error x => rw [hp] at h1; cases h1
  | ok d => rw [hp] at h1; exact ⟨⟨d, rfl, h1⟩, h2⟩

/-- The values of an entry that was found are octets: no text is a member of it. -/
theorem octets_not_text (U : Unicode) (e : Entry) (he : ∀ v, Member U e v → ∃ b, v = .bytes b) (s : Str) :
    hasMember U e (.str (.text s)) = .ok false := by
  obtain ⟨r, h1, h2⟩ := member_string_iff U e (.text s)
  cases r with
  | false => exact h1
  | true => obtain ⟨b, hb⟩ := he _ (h2.mp rfl); cases hb

/-- Members under the name as octets are hidden by the name as text. -/
theorem member_hidden : ∃ e : Entry, hasMember asciiTables e (.dn ann) = .ok false ∧
    hasMember asciiTables { e with attrs := e.attrs.erase asciiTables (.text "member".toList) } (.dn ann) = .ok true :=
  ⟨⟨[], [(.text "member".toList, []), (.bytes (Utf8.encode "member".toList), [.bytes (Utf8.encode "cn=ann,dc=x".toList)])]⟩,
    by decide +kernel, by decide +kernel⟩

/-- Equal entries have different hashes if the hashes of two texts differ. -/
theorem hash_differs {α : Type} (hash : Str → α) (h : hash "A=b".toList ≠ hash "a=b".toList) : ∃ a b : Entry,
    Delta.entryEq asciiTables a b = .ok true ∧ entryHash hash a ≠ entryHash hash b := by
  refine ⟨⟨[[⟨['A'], ['b']⟩]], []⟩, ⟨[[⟨['a'], ['b']⟩]], []⟩, by decide +kernel, ?_⟩
  have e1 : Dn.hashKey [[⟨['A'], ['b']⟩]] = "A=b".toList := by decide +kernel
  have e2 : Dn.hashKey [[⟨['a'], ['b']⟩]] = "a=b".toList := by decide +kernel
  unfold entryHash
  rw [e1, e2]
  exact h

/-! ### Examples -/

example : hasMember asciiTables (groupOf (.text "cn=ann,dc=x".toList)) (.dn ann) = .ok true ∧
    hasMember asciiTables (groupOf (.bytes (Utf8.encode "cn=ann,dc=x".toList))) (.dn ann) = .ok true ∧
    hasMember asciiTables (groupOf (.bytes (Utf8.encode "cn=ann,dc=x".toList))) (.str (.text "cn=ann,dc=x".toList)) = .ok false := by
  decide +kernel

example : ann.Good ∧ CanonicalCase asciiTables ann ∧ Dn.eq asciiTables ann ann = true :=
  ⟨Dn.parse_good (U := asciiTables) (s := "cn=ann,dc=x".toList) (by decide +kernel), by unfold CanonicalCase; decide +kernel, by decide +kernel⟩

example : Member asciiTables (groupOf (.text "cn=ann,dc=x".toList)) (.text "cn=ann,dc=x".toList) ∧
    ∀ v, Member asciiTables (groupOf (.bytes [1])) v → ∃ b, v = .bytes b := by
  constructor
  · exact .inl ⟨_, rfl, by simp⟩
  · rintro v (⟨vs, h, hv⟩ | ⟨h, _⟩)
    · cases h
      simp only [List.mem_singleton] at hv
      exact ⟨_, hv⟩
    · cases h

example : Delta.entryEq asciiTables (groupOf (.text ['a'])) (groupOf (.text ['a'])) = .ok true ∧
    CanonicalCase asciiTables (groupOf (.text ['a'])).dn := by
  unfold CanonicalCase; decide +kernel

example : (fun s : Str => s) "A=b".toList ≠ (fun s : Str => s) "a=b".toList := by decide

end Verif.C109
