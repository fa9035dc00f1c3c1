import Verif.Lemmas.SchemaText
import Verif.Spec.Schema
/-
C57: printing a schema description and parsing the text gives back the same description.

Full statement: for every element d built from valid names, `parse d.text = ok d`, and for every d that the parser returns as well.
It holds for attribute types and syntaxes.  It holds for matching rules with a name or without one; the parser also
returns matching rules with an empty list of names.  It holds for object classes built from valid names; the parser also returns
object classes whose text does not parse, or parses as something else.
-/
namespace Verif.C57
open Verif.Schema Verif.Spec.Schema

theorem blank_iff (b : UInt8) : Blank b ↔ Password.isSpace b = true := by
  have : ∀ n : Fin 256, (UInt8.ofNat n.val ∈ [9, 10, 11, 12, 13, 32]) ↔ Password.isSpace (UInt8.ofNat n.val) = true := by decide +kernel
  have h := this ⟨b.toNat, b.toNat_lt⟩
  simpa [Blank] using h

theorem Token.word {w : Bytes} (h : Token w) : Word w := by
  refine ⟨h.1, fun b hb => ?_⟩
  have := h.2 b hb
  rw [blank_iff] at this
  simpa using this

theorem Numeric.ok {o : Bytes} (h : Numeric o) : oidOk o = true := by
  simp only [oidOk, Bool.and_eq_true, List.all_eq_true, Bool.or_eq_true, decide_eq_true_eq]
  exact h

theorem Names.ok {name : Option (List Bytes)} (h : Names name) : ∀ l, name = some l → NamesOk l := fun l hl =>
  ⟨(h l hl).1, fun s hs => ((h l hl).2 s hs).1, fun _ s hs => ((h l hl).2 s hs).2⟩

theorem word_strip {w : Bytes} (h : Word w) : strip w = w := by
  have h1 : lstrip w = w := by simpa using lstrip_word (t := []) h
  have h2 : lstrip w.reverse = w.reverse := by
    have : Word w.reverse := ⟨by simpa using h.1, fun b hb => h.2 b (List.mem_reverse.mp hb)⟩
    simpa using lstrip_word (t := []) this
  unfold strip
  rw [h1, h2, List.reverse_reverse]

theorem references_ok {l : List Bytes} (h : ∀ w ∈ l, Reference w) (hl : l ≠ []) (rest : List Bytes) : OidsOk l rest := by
  match l, hl with
  | [w], _ =>
    obtain ⟨h1, _, h2, _⟩ := h w (by simp)
    refine .inr (.inl ⟨w, rfl, Token.word h1, fun e => ?_⟩)
    cases w with
    | nil => cases e
    | cons b w =>
      simp only [List.head?_cons, Option.some.injEq] at e
      exact h2 (by simp [e])
  | _ :: _ :: _, _ =>
    exact .inl ⟨by simp, fun e he =>
      ⟨(h e he).1.1, (h e he).2.1, (h e he).2.2.2, word_strip (Token.word (h e he).1)⟩⟩

/-- **C57**, attribute types. -/
theorem attribute_roundtrip {d : AttributeType} (h : ValidAttribute d) : AttributeType.parse d.text = .ok d := by
  apply AttributeType.roundtrip
  exact {
    oid := Numeric.ok h.oid
    name := Names.ok h.name
    desc := h.desc
    sup := fun w hw => .inl (Token.word (h.words w (by simp [hw])))
    equality := fun w hw => .inl (Token.word (h.words w (by simp [hw])))
    ordering := fun w hw => .inl (Token.word (h.words w (by simp [hw])))
    substr := fun w hw => .inl (Token.word (h.words w (by simp [hw])))
    syntax' := fun w hw => .inl (Token.word (h.words w (by simp [hw])))
    usage := h.usage
    extensions := fun x hx => by
      obtain ⟨h1, h2, h3, h4⟩ := h.extensions x hx
      exact ⟨Token.word h1, h2, h3, h4⟩ }

/-- **C57**, attribute types that were parsed: every one of them. -/
theorem attribute_reparse {t : Bytes} {d : AttributeType} (h : AttributeType.parse t = .ok d) : AttributeType.parse d.text = .ok d :=
  AttributeType.roundtrip (AttributeType.printable h)

/-- **C57**, syntaxes. -/
theorem syntax_roundtrip {d : SyntaxDescription} (h : ValidSyntax d) : SyntaxDescription.parse d.text = .ok d :=
  SyntaxDescription.roundtrip ⟨Numeric.ok h.oid, h.desc⟩

theorem syntax_reparse {t : Bytes} {d : SyntaxDescription} (h : SyntaxDescription.parse t = .ok d) : SyntaxDescription.parse d.text = .ok d :=
  SyntaxDescription.roundtrip (SyntaxDescription.printable h)

/-- **C57**, matching rules. -/
theorem rule_roundtrip {d : MatchingRule} (h : ValidRule d) : MatchingRule.parse d.text = .ok d :=
  MatchingRule.roundtrip ⟨Numeric.ok h.oid, Names.ok h.name, h.desc, Token.word h.syntax'⟩

/-- Missing: the parser accepts an empty list of names, see `nameless_rule`. -/
theorem rule_reparse_partial {t : Bytes} {d : MatchingRule} (h : MatchingRule.parse t = .ok d) (hn : d.name ≠ some []) :
    MatchingRule.parse d.text = .ok d :=
  MatchingRule.roundtrip (MatchingRule.printable h hn)

/-- **C57**, object classes. -/
theorem class_roundtrip {d : ObjectClass} (h : ValidClass d) : ObjectClass.parse d.text = .ok d := by
  apply ObjectClass.roundtrip
  exact {
    oid := Numeric.ok h.oid
    name := Names.ok h.name
    desc := h.desc
    sup := fun hl => references_ok (fun w hw => h.references w (.inl hw)) hl _
    tuple := by
      have := h.tuple
      cases ht : d.supTuple <;> simp_all
    type := by simpa using h.type
    must := fun hl => references_ok (fun w hw => h.references w (.inr (.inl hw))) hl _
    may := fun hl => references_ok (fun w hw => h.references w (.inr (.inr hw))) hl _ }

/-- Missing: object classes with other references, see the three theorems below. -/
theorem class_reparse_partial {t : Bytes} {d : ObjectClass} (h : ObjectClass.parse t = .ok d)
    (hr : ∀ w, w ∈ d.sup ∨ w ∈ d.must ∨ w ∈ d.may → Reference w) (ht : d.supTuple = true → d.sup.length > 1) :
    ObjectClass.parse d.text = .ok d := by
  apply ObjectClass.roundtrip
  unfold ObjectClass.parse at h
  obtain ⟨⟨oid, t0⟩, e0, h⟩ := bind_ok h
  obtain ⟨⟨name, t1⟩, e1, h⟩ := bind_ok h
  obtain ⟨⟨desc, t2⟩, e2, h⟩ := bind_ok h
  obtain ⟨⟨obsolete, t3⟩, e3, h⟩ := bind_ok h
  obtain ⟨⟨sup, t4⟩, e4, h⟩ := bind_ok h
  obtain ⟨⟨abstract, t5⟩, e5, h⟩ := bind_ok h
  obtain ⟨⟨structural, t6⟩, e6, h⟩ := bind_ok h
  obtain ⟨_, _, h⟩ := bind_ok h
  obtain ⟨⟨auxiliary, t7⟩, e7, h⟩ := bind_ok h
  obtain ⟨_, _, h⟩ := bind_ok h
  obtain ⟨⟨must, t8⟩, e8, h⟩ := bind_ok h
  obtain ⟨⟨may, t9⟩, e9, h⟩ := bind_ok h
  obtain ⟨_, _, h⟩ := bind_ok h
  obtain ⟨_, e10, h⟩ := bind_ok h
  obtain ⟨_, e11, h⟩ := bind_ok h
  have hd : ObjectClass.mk oid name desc obsolete.isSome (tupleOf sup) (listOf sup)
      (if abstract.isSome then kw "ABSTRACT" else if auxiliary.isSome then kw "AUXILIARY" else kw "STRUCTURAL") (listOf must) (listOf may) = d := by
    simpa only [pure, Except.pure, Except.ok.injEq] using h
  have hname : name ≠ some [] := by simpa using require_ok e11
  subst hd
  refine {
    oid := require_ok e10
    name := names_printable e1 hname
    desc := desc_printable e2
    sup := fun hl => references_ok (fun w hw => hr w (.inl hw)) hl _
    tuple := ?_
    type := ?_
    must := fun hl => references_ok (fun w hw => hr w (.inr (.inl hw))) hl _
    may := fun hl => references_ok (fun w hw => hr w (.inr (.inr hw))) hl _ }
  · simp only at ht ⊢
    cases sup with
    | none => rfl
    | some p =>
      obtain ⟨u, hu⟩ := clause_ok e4
      obtain ⟨b, l⟩ := p
      cases b with
      | true => simpa [tupleOf] using ht rfl
      | false =>
        have : l.length = 1 := by
          unfold oids at hu
          split at hu
          · obtain ⟨p, _, hu⟩ := bind_ok hu
            obtain ⟨q, _, hu⟩ := bind_ok hu
            simp [pure, Except.pure] at hu
          · obtain ⟨p, _, hu⟩ := bind_ok hu
            simp only [pure, Except.pure, Except.ok.injEq, Prod.mk.injEq] at hu
            rw [← hu.1.2]; rfl
        simp [tupleOf, listOf, this]
  · simp only
    split
    · exact .inl rfl
    · split
      · exact .inr (.inr rfl)
      · exact .inr (.inl rfl)

/-! What the parser accepts and the printer does not write back. -/

/-- A matching rule with no names between its parentheses is accepted, and its text is refused. -/
theorem nameless_rule : ∃ t d, MatchingRule.parse t = .ok d ∧ MatchingRule.parse d.text = .error .assertionError :=
  ⟨kw "( 1.2 NAME ( ) SYNTAX 1.3 )", ⟨kw "1.2", some [], none, false, kw "1.3"⟩, by decide +kernel, by decide +kernel⟩

/-- One superior in parentheses comes back as a list instead of a tuple. -/
theorem single_superior : ∃ t d d', ObjectClass.parse t = .ok d ∧ ObjectClass.parse d.text = .ok d' ∧ d ≠ d' :=
  ⟨kw "( 1.2 SUP ( top ) )", ⟨kw "1.2", none, none, false, true, [kw "top"], kw "STRUCTURAL", [], []⟩,
    ⟨kw "1.2", none, none, false, false, [kw "top"], kw "STRUCTURAL", [], []⟩, by decide +kernel, by decide +kernel, by decide +kernel⟩

/-- Two words between parentheses count as one reference, and the text that is printed for it is refused. -/
theorem spaced_reference : ∃ t d, ObjectClass.parse t = .ok d ∧ ObjectClass.parse d.text = .error .assertionError :=
  ⟨kw "( 1.2 MUST ( cn sn ) )", ⟨kw "1.2", none, none, false, false, [], kw "STRUCTURAL", [kw "cn sn"], []⟩,
    by decide +kernel, by decide +kernel⟩

/-- A keyword with nothing after it swallows the word that is printed next. -/
theorem missing_reference : ∃ t d d', ObjectClass.parse t = .ok d ∧ ObjectClass.parse d.text = .ok d' ∧ d.sup = [[]] ∧ d'.sup = [kw "STRUCTURAL"] :=
  ⟨kw "( 1.2 SUP )", ⟨kw "1.2", none, none, false, false, [[]], kw "STRUCTURAL", [], []⟩,
    ⟨kw "1.2", none, none, false, false, [kw "STRUCTURAL"], kw "STRUCTURAL", [], []⟩, by decide +kernel, by decide +kernel, rfl, rfl⟩

/-! The hypotheses can be met. -/

/-- An attribute type with most of its parts. -/
def cn : AttributeType where
  oid := kw "2.5.4.3"
  name := some [kw "cn", kw "commonName"]
  desc := some (kw "a (common) NAME")
  obsolete := true
  sup := some (kw "name")
  equality := none
  ordering := none
  substr := some (kw "caseIgnoreSubstringsMatch")
  syntax' := some (kw "1.3.6{64}")
  singleValue := true
  collective := false
  noUserModification := true
  usage := some (kw "dSAOperation")
  extensions := [(kw "X-ORIGIN", .inl (kw "RFC (4519)")), (kw "X-SCHEMA-FILE", .inr [kw "a b", kw ""])]

theorem cn_valid : ValidAttribute cn where
  oid := ⟨by decide +kernel, by decide +kernel⟩
  name := by rintro l h; cases h; exact ⟨by decide +kernel, by unfold Name Quotable; decide +kernel⟩
  desc := by rintro s h; cases h; unfold Quotable; decide +kernel
  words := by
    intro w h
    have : w ∈ [kw "name", kw "caseIgnoreSubstringsMatch", kw "1.3.6{64}"] := by simpa [cn] using h
    clear h; revert this; revert w
    unfold Token Blank
    decide +kernel
  usage := by rintro w h; cases h; decide +kernel
  extensions := by
    intro x hx
    simp only [cn, List.mem_cons, List.not_mem_nil, or_false] at hx
    rcases hx with rfl | rfl
    · refine ⟨⟨by decide +kernel, by unfold Blank; decide +kernel⟩, by decide +kernel, ?_, fun l e => nomatch e⟩
      rintro s e; cases e; unfold Quotable; decide +kernel
    · refine ⟨⟨by decide +kernel, by unfold Blank; decide +kernel⟩, by decide +kernel, fun s e => (nomatch e), ?_⟩
      rintro l e; cases e; unfold Name Quotable; decide +kernel

/-- An odd text that the parser accepts: the last word is missing. -/
example : (AttributeType.parse (kw "(1.2 NAME 'x)'\n  NO-USER-MODIFICATION)")).isOk = true ∧
    (AttributeType.parse (kw "( 1.2 SUP )")).isOk = true := by decide +kernel

def person : ObjectClass where
  oid := kw "2.5.6.6"
  name := some [kw "person"]
  desc := none
  obsolete := false
  supTuple := true
  sup := [kw "top", kw "entry"]
  type := kw "AUXILIARY"
  must := [kw "sn", kw "cn"]
  may := [kw "description"]

theorem person_valid : ValidClass person where
  oid := ⟨by decide +kernel, by decide +kernel⟩
  name := by rintro l h; cases h; exact ⟨by decide +kernel, by unfold Name Quotable; decide +kernel⟩
  desc := by rintro s h; cases h
  type := by decide +kernel
  references := by
    intro w h
    have : w ∈ [kw "top", kw "entry", kw "sn", kw "cn", kw "description"] := by
      simp only [person, List.mem_cons, List.not_mem_nil, or_false] at h ⊢
      rcases h with (h | h) | (h | h) | h <;> simp [h]
    clear h; revert this; revert w
    unfold Reference Token Blank
    decide +kernel
  tuple := by decide

example : ∃ d, ObjectClass.parse (kw "( 2.5.6.6 NAME 'person' SUP top MUST (sn$cn) MAY ( a $ b ) )") = .ok d ∧
    (∀ w, w ∈ d.sup ∨ w ∈ d.must ∨ w ∈ d.may → Reference w) ∧ (d.supTuple = true → d.sup.length > 1) := by
  refine ⟨⟨kw "2.5.6.6", some [kw "person"], none, false, false, [kw "top"], kw "STRUCTURAL", [kw "sn", kw "cn"], [kw "a", kw "b"]⟩,
    by decide +kernel, ?_, by decide⟩
  intro w h
  have : w ∈ [kw "top", kw "sn", kw "cn", kw "a", kw "b"] := by
    simp only [List.mem_cons, List.not_mem_nil, or_false] at h ⊢
    rcases h with h | (h | h) | (h | h) <;> simp [h]
  clear h; revert this; revert w
  unfold Reference Token Blank
  decide +kernel

example : ValidSyntax ⟨kw "1.3.6", some (kw "Binary X-NOT-HUMAN-READABLE"), true, false⟩ :=
  ⟨⟨by decide +kernel, by decide +kernel⟩, by rintro s h; cases h; unfold Quotable; decide +kernel⟩

example : ∃ d, SyntaxDescription.parse (kw "( 1.3.6 DESC 'Binary' X-BINARY-TRANSFER-REQUIRED 'FALSE')") = .ok d ∧ d.binaryTransferRequired = true :=
  ⟨⟨kw "1.3.6", some (kw "Binary"), true, true⟩, by decide +kernel, rfl⟩

example : ValidRule ⟨kw "2.5.13.2", some [kw "caseIgnoreMatch", kw "x"], none, true, kw "1.3.6"⟩ :=
  ⟨⟨by decide +kernel, by decide +kernel⟩, by rintro l h; cases h; exact ⟨by decide +kernel, by unfold Name Quotable; decide +kernel⟩,
    (by rintro s h; cases h), ⟨by decide +kernel, by unfold Blank; decide +kernel⟩⟩

example : ∃ d, MatchingRule.parse (kw "( 2.5 NAME ( 'a''b' ) OBSOLETE SYNTAX 1.3 )") = .ok d ∧ d.name ≠ some [] :=
  ⟨⟨kw "2.5", some [kw "a", kw "b"], none, true, kw "1.3"⟩, by decide +kernel, by decide +kernel⟩

/-! The texts themselves. -/

example : cn.text = kw ("( 2.5.4.3 NAME ( 'cn' 'commonName' )\n        DESC 'a (common) NAME'\n        OBSOLETE\n        SUP name\n" ++
    "        SUBSTR caseIgnoreSubstringsMatch\n        SYNTAX 1.3.6{64}\n        SINGLE-VALUE\n        NO-USER-MODIFICATION\n" ++
    "        USAGE dSAOperation\n        X-ORIGIN 'RFC (4519)'\n        X-SCHEMA-FILE ( 'a b' '' ) )") := by decide +kernel

example : person.text = kw ("( 2.5.6.6 NAME 'person'\n        SUP ( top $ entry )\n        AUXILIARY\n        MUST ( sn $ cn )\n" ++
    "        MAY description )") := by decide +kernel

example : (SyntaxDescription.mk (kw "1.3.6") (some (kw "Binary")) true false).text =
    kw "( 1.3.6 DESC 'Binary' X-BINARY-TRANSFER-REQUIRED 'TRUE' X-NOT-HUMAN-READABLE 'TRUE' )" := by decide +kernel

example : (MatchingRule.mk (kw "2.5.13.2") (some [kw "caseIgnoreMatch", kw "x"]) none true (kw "1.3.6")).text =
    kw "( 2.5.13.2 NAME ( 'caseIgnoreMatch' 'x' ) OBSOLETE SYNTAX 1.3.6 )" := by decide +kernel

/-! What the parser refuses. -/

example : (AttributeType.parse (kw "( cn SYNTAX 1.3 )")).isOk = false ∧ (AttributeType.parse (kw "( 1.2 NAME ( ) )")).isOk = false ∧
    (AttributeType.parse (kw "( 1.2 USAGE nobody )")).isOk = false ∧ (AttributeType.parse (kw "( 1.2 Y-FOO 'a' )")).isOk = false ∧
    (AttributeType.parse (kw "( 1.2 SYNTAX 1.3 SUP name )")).isOk = false ∧ (AttributeType.parse (kw "1.2 )")).isOk = false ∧
    (AttributeType.parse (kw "( 1.2")).isOk = false := by decide +kernel

example : (ObjectClass.parse (kw "( 1.2 ABSTRACT STRUCTURAL )")).isOk = false ∧ (ObjectClass.parse (kw "( 1.2 ABSTRACT AUXILIARY )")).isOk = false ∧
    (ObjectClass.parse (kw "( 1.2 MUST ( a $ ) )")).isOk = false ∧ (ObjectClass.parse (kw "( 1.2 X-FOO 'a' )")).isOk = false ∧
    (ObjectClass.parse (kw "( top )")).isOk = false ∧ (ObjectClass.parse (kw "( 1.2 NAME ( ) )")).isOk = false ∧
    (ObjectClass.parse (kw "( 1.2 STRUCTURAL AUXILIARY )")).isOk = false := by decide +kernel

example : (MatchingRule.parse (kw "( 1.2 NAME 'a' )")).isOk = false ∧ (MatchingRule.parse (kw "( 1.2 SYNTAX )")).isOk = false ∧
    (MatchingRule.parse (kw "( 1.2 SYNTAX 1.3 DESC 'a' )")).isOk = false ∧ (SyntaxDescription.parse (kw "( 1.2 NAME 'a' )")).isOk = false := by
  decide +kernel

end Verif.C57
