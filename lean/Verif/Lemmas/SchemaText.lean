import Verif.Lemmas.Schema
/-
Printing and parsing whole schema descriptions.
-/
namespace Verif.Schema

/-- The parts of an attribute type that follow the syntax, in print. -/
def AttributeType.tail (d : AttributeType) : List Bytes :=
  flag "SINGLE-VALUE" d.singleValue ++ (flag "COLLECTIVE" d.collective ++
    (flag "NO-USER-MODIFICATION" d.noUserModification ++ (item "USAGE" d.usage ++ d.extensions.map extensionText)))

/-- An attribute type that can be printed. -/
structure AttributeType.Printable (d : AttributeType) : Prop where
  oid : oidOk d.oid = true
  name : ∀ l, d.name = some l → NamesOk l
  desc : ∀ s, d.desc = some s → (39 : UInt8) ∉ s
  sup : ∀ w, d.sup = some w →
    WordOk w (item "EQUALITY" d.equality ++ (item "ORDERING" d.ordering ++ (item "SUBSTR" d.substr ++ (item "SYNTAX" d.syntax' ++ d.tail))))
  equality : ∀ w, d.equality = some w →
    WordOk w (item "ORDERING" d.ordering ++ (item "SUBSTR" d.substr ++ (item "SYNTAX" d.syntax' ++ d.tail)))
  ordering : ∀ w, d.ordering = some w → WordOk w (item "SUBSTR" d.substr ++ (item "SYNTAX" d.syntax' ++ d.tail))
  substr : ∀ w, d.substr = some w → WordOk w (item "SYNTAX" d.syntax' ++ d.tail)
  syntax' : ∀ w, d.syntax' = some w → WordOk w d.tail
  usage : ∀ w, d.usage = some w → w ∈ usages
  extensions : ∀ x ∈ d.extensions, ExtOk x

theorem usage_word {w : Bytes} (h : w ∈ usages) : Word w := by
  unfold usages at h
  simp only [List.mem_cons, List.not_mem_nil, or_false] at h
  rcases h with rfl | rfl | rfl | rfl <;> exact ⟨by decide +kernel, by decide +kernel⟩

theorem flag_isSome (b : Bool) : (if b then some () else none).isSome = b := by cases b <;> rfl

theorem item_map_id (k : String) (x : Option Bytes) : item k x = item k (x.map id) := by cases x <;> rfl

theorem ext_length (l : List (Bytes × (Bytes ⊕ List Bytes))) (sep : Bytes) : l.length ≤ (after sep (l.map extensionText)).length := by
  induction l with
  | nil => simp
  | cons x l ih =>
    rw [List.map_cons, after_cons, List.length_append, List.length_cons]
    have h1 : 1 ≤ (extensionText x).length := by
      obtain ⟨w, v⟩ := x
      cases v <;> simp [extensionText] <;> omega
    have h2 : (after sep (l.map extensionText)).length ≤ (more sep (l.map extensionText)).length := by
      cases l <;> simp [more, after]
    omega

theorem lstrip_length (t : Bytes) : (lstrip t).length ≤ t.length := (List.dropWhile_sublist _).length_le

theorem AttributeType.roundtrip {d : AttributeType} (h : d.Printable) : AttributeType.parse d.text = .ok d := by
  have hs := newline_sep
  have H13 := heads_ext h.extensions
  have H12 := heads_append (heads_item (k := "USAGE") ⟨by decide +kernel, by decide +kernel⟩ d.usage) H13
  have H11 := heads_append (heads_flag (k := "NO-USER-MODIFICATION") ⟨by decide +kernel, by decide +kernel⟩ d.noUserModification) H12
  have H10 := heads_append (heads_flag (k := "COLLECTIVE") ⟨by decide +kernel, by decide +kernel⟩ d.collective) H11
  have H9 := heads_append (heads_flag (k := "SINGLE-VALUE") ⟨by decide +kernel, by decide +kernel⟩ d.singleValue) H10
  have H8 := heads_append (heads_item (k := "SYNTAX") ⟨by decide +kernel, by decide +kernel⟩ d.syntax') H9
  have H7 := heads_append (heads_item (k := "SUBSTR") ⟨by decide +kernel, by decide +kernel⟩ d.substr) H8
  have H6 := heads_append (heads_item (k := "ORDERING") ⟨by decide +kernel, by decide +kernel⟩ d.ordering) H7
  have H5 := heads_append (heads_item (k := "EQUALITY") ⟨by decide +kernel, by decide +kernel⟩ d.equality) H6
  have H4 := heads_append (heads_item (k := "SUP") ⟨by decide +kernel, by decide +kernel⟩ d.sup) H5
  have H3 := heads_append (heads_flag (k := "OBSOLETE") ⟨by decide +kernel, by decide +kernel⟩ d.obsolete) H4
  have H2 := heads_append (heads_item (k := "DESC") ⟨by decide +kernel, by decide +kernel⟩ (d.desc.map quoted)) H3
  have H1 := heads_append (heads_item (k := "NAME") ⟨by decide +kernel, by decide +kernel⟩ (d.name.map strList)) H2
  have e0 := opening_lines (oid_word h.oid) H1 hs
  obtain ⟨T1, e1, t1⟩ := item_step hs H1.after_fixed H2 ⟨by decide +kernel, by decide +kernel⟩
    (not_ext (ks := [kw "DESC", kw "OBSOLETE", kw "SUP", kw "EQUALITY", kw "ORDERING", kw "SUBSTR", kw "SYNTAX", kw "SINGLE-VALUE", kw "COLLECTIVE", kw "NO-USER-MODIFICATION", kw "USAGE"]) h.extensions (by decide +kernel) (by decide +kernel))
    (fun l hl => ⟨_, names_step (h.name l hl) _, H2.lstrip_more hs⟩)
  obtain ⟨T2, e2, t2⟩ := item_step hs t1 H3 ⟨by decide +kernel, by decide +kernel⟩
    (not_ext (ks := [kw "OBSOLETE", kw "SUP", kw "EQUALITY", kw "ORDERING", kw "SUBSTR", kw "SYNTAX", kw "SINGLE-VALUE", kw "COLLECTIVE", kw "NO-USER-MODIFICATION", kw "USAGE"]) h.extensions (by decide +kernel) (by decide +kernel))
    (fun s hd => ⟨_, oneString_step (h.desc s hd), H3.lstrip_more hs⟩)
  obtain ⟨T3, e3, t3⟩ := flag_step hs t2 H4 ⟨by decide +kernel, by decide +kernel⟩
    (not_ext (ks := [kw "SUP", kw "EQUALITY", kw "ORDERING", kw "SUBSTR", kw "SYNTAX", kw "SINGLE-VALUE", kw "COLLECTIVE", kw "NO-USER-MODIFICATION", kw "USAGE"]) h.extensions (by decide +kernel) (by decide +kernel))
  rw [item_map_id] at t3
  obtain ⟨T4, e4, t4⟩ := item_step hs t3 H5 ⟨by decide +kernel, by decide +kernel⟩
    (not_ext (ks := [kw "EQUALITY", kw "ORDERING", kw "SUBSTR", kw "SYNTAX", kw "SINGLE-VALUE", kw "COLLECTIVE", kw "NO-USER-MODIFICATION", kw "USAGE"]) h.extensions (by decide +kernel) (by decide +kernel))
    (fun w hw => ⟨_, oneWord_step hs H5 (h.sup w hw), H5.after_fixed⟩)
  rw [item_map_id] at t4
  obtain ⟨T5, e5, t5⟩ := item_step hs t4 H6 ⟨by decide +kernel, by decide +kernel⟩
    (not_ext (ks := [kw "ORDERING", kw "SUBSTR", kw "SYNTAX", kw "SINGLE-VALUE", kw "COLLECTIVE", kw "NO-USER-MODIFICATION", kw "USAGE"]) h.extensions (by decide +kernel) (by decide +kernel))
    (fun w hw => ⟨_, oneWord_step hs H6 (h.equality w hw), H6.after_fixed⟩)
  rw [item_map_id] at t5
  obtain ⟨T6, e6, t6⟩ := item_step hs t5 H7 ⟨by decide +kernel, by decide +kernel⟩
    (not_ext (ks := [kw "SUBSTR", kw "SYNTAX", kw "SINGLE-VALUE", kw "COLLECTIVE", kw "NO-USER-MODIFICATION", kw "USAGE"]) h.extensions (by decide +kernel) (by decide +kernel))
    (fun w hw => ⟨_, oneWord_step hs H7 (h.ordering w hw), H7.after_fixed⟩)
  rw [item_map_id] at t6
  obtain ⟨T7, e7, t7⟩ := item_step hs t6 H8 ⟨by decide +kernel, by decide +kernel⟩
    (not_ext (ks := [kw "SYNTAX", kw "SINGLE-VALUE", kw "COLLECTIVE", kw "NO-USER-MODIFICATION", kw "USAGE"]) h.extensions (by decide +kernel) (by decide +kernel))
    (fun w hw => ⟨_, oneWord_step hs H8 (h.substr w hw), H8.after_fixed⟩)
  rw [item_map_id] at t7
  obtain ⟨T8, e8, t8⟩ := item_step hs t7 H9 ⟨by decide +kernel, by decide +kernel⟩
    (not_ext (ks := [kw "SINGLE-VALUE", kw "COLLECTIVE", kw "NO-USER-MODIFICATION", kw "USAGE"]) h.extensions (by decide +kernel) (by decide +kernel))
    (fun w hw => ⟨_, oneWord_step hs H9 (h.syntax' w hw), H9.after_fixed⟩)
  obtain ⟨T9, e9, t9⟩ := flag_step hs t8 H10 ⟨by decide +kernel, by decide +kernel⟩
    (not_ext (ks := [kw "COLLECTIVE", kw "NO-USER-MODIFICATION", kw "USAGE"]) h.extensions (by decide +kernel) (by decide +kernel))
  obtain ⟨T10, e10, t10⟩ := flag_step hs t9 H11 ⟨by decide +kernel, by decide +kernel⟩
    (not_ext (ks := [kw "NO-USER-MODIFICATION", kw "USAGE"]) h.extensions (by decide +kernel) (by decide +kernel))
  obtain ⟨T11, e11, t11⟩ := flag_step hs t10 H12 ⟨by decide +kernel, by decide +kernel⟩
    (not_ext (ks := [kw "USAGE"]) h.extensions (by decide +kernel) (by decide +kernel))
  rw [item_map_id] at t11
  obtain ⟨T12, e12, t12⟩ := item_step hs t11 H13 ⟨by decide +kernel, by decide +kernel⟩
    (not_ext (ks := []) h.extensions (by decide +kernel) (by decide +kernel))
    (fun w hw => ⟨_, oneWord_step hs H13 (.inl (usage_word (h.usage w hw))), H13.after_fixed⟩)
  have e13 := extension_loop hs h.extensions (T12.length + 1) T12 t12 (by
    have a := ext_length d.extensions newline
    have b := lstrip_length T12
    rw [t12] at b
    omega)
  have r1 : require (oidOk d.oid) = .ok () := by rw [h.oid]; rfl
  have r2 : require (d.name ≠ some []) = .ok () := by
    have : d.name ≠ some [] := fun e => (h.name [] e).some rfl
    simp [require, this]
  have r3 : require (usageOk d.usage) = .ok () := by
    cases hu : d.usage with
    | none => rfl
    | some u => simp [require, usageOk, h.usage u hu]
  have ht : d.text = [40, 32] ++ d.oid ++ [32] ++ join newline (item "NAME" (d.name.map strList) ++ (item "DESC" (d.desc.map quoted) ++
      (flag "OBSOLETE" d.obsolete ++ (item "SUP" d.sup ++ (item "EQUALITY" d.equality ++ (item "ORDERING" d.ordering ++
      (item "SUBSTR" d.substr ++ (item "SYNTAX" d.syntax' ++ (flag "SINGLE-VALUE" d.singleValue ++ (flag "COLLECTIVE" d.collective ++
      (flag "NO-USER-MODIFICATION" d.noUserModification ++ (item "USAGE" d.usage ++ d.extensions.map extensionText)))))))))))) ++ [32, 41] := by
    unfold AttributeType.text
    congr 3
    simp only [List.append_assoc]
  rw [ht]
  unfold AttributeType.parse
  simp only [e0, e1, e2, e3, e4, e5, e6, e7, e8, e9, e10, e11, e12, e13, r1, r2, r3, bind, Except.bind, pure, Except.pure, flag_isSome]

theorem bind_ok {α β : Type} {x : Py α} {f : α → Py β} {b : β} (h : (x >>= f) = .ok b) : ∃ a, x = .ok a ∧ f a = .ok b := by
  cases x with
  | error e => cases h
  | ok a => exact ⟨a, rfl, h⟩

theorem require_ok {b : Bool} {u : Unit} (h : require b = .ok u) : b = true := by
  cases b with
  | false => cases h
  | true => rfl

theorem isSome_none {x : Option Unit} (h : x = none) : x.isSome = false := by rw [h]; rfl

theorem names_printable {k t t' : Bytes} {name : Option (List Bytes)} (h : clause k names t = .ok (name, t')) (hn : name ≠ some []) :
    ∀ l, name = some l → NamesOk l := by
  rintro l rfl
  obtain ⟨u, hu⟩ := clause_ok h
  obtain ⟨h1, h2⟩ := names_ok hu
  exact ⟨fun e => hn (by rw [e]), h1, h2⟩

theorem desc_printable {k t t' : Bytes} {desc : Option Bytes} (h : clause k oneString t = .ok (desc, t')) :
    ∀ s, desc = some s → (39 : UInt8) ∉ s := by
  rintro s rfl
  obtain ⟨u, hu⟩ := clause_ok h
  exact oneString_ok hu

theorem word_printable {k t t' : Bytes} {x : Option Bytes} {l : List Bytes} (h : clause k oneWord t = .ok (x, t')) (hl : Ends t' → l = []) :
    ∀ w, x = some w → WordOk w l := by
  rintro w rfl
  obtain ⟨u, hu⟩ := clause_ok h
  rcases oneWord_ok hu with hw | ⟨h1, h2⟩
  · exact .inl hw
  · exact .inr ⟨h1, hl (by rw [h2]; rfl)⟩

theorem item_nothing {k : String} {x : Option Bytes} {l : List Bytes} (h : x = none) (hl : l = []) : item k x ++ l = [] := by rw [h, hl]; rfl

theorem flag_nothing {k : String} {x : Option Unit} {l : List Bytes} (h : x = none) (hl : l = []) : flag k x.isSome ++ l = [] := by
  rw [h, hl]; rfl

theorem extensionLoop_ends {n : Nat} {t : Bytes} {l : List (Bytes × (Bytes ⊕ List Bytes))} (h : extensionLoop (n + 1) t = .ok l) (ht : Ends t) :
    l.map extensionText = [] := by
  unfold extensionLoop at h
  rw [show lstrip t = [] from ht] at h
  simp [peekWord, bind, Except.bind] at h
  rw [h]; rfl

/-- What the parser accepts can be printed. -/
theorem AttributeType.printable {t : Bytes} {d : AttributeType} (h : AttributeType.parse t = .ok d) : d.Printable := by
  unfold AttributeType.parse at h
  obtain ⟨⟨oid, t0⟩, e0, h⟩ := bind_ok h
  obtain ⟨⟨name, t1⟩, e1, h⟩ := bind_ok h
  obtain ⟨⟨desc, t2⟩, e2, h⟩ := bind_ok h
  obtain ⟨⟨obsolete, t3⟩, e3, h⟩ := bind_ok h
  obtain ⟨⟨sup, t4⟩, e4, h⟩ := bind_ok h
  obtain ⟨⟨equality, t5⟩, e5, h⟩ := bind_ok h
  obtain ⟨⟨ordering, t6⟩, e6, h⟩ := bind_ok h
  obtain ⟨⟨substr, t7⟩, e7, h⟩ := bind_ok h
  obtain ⟨⟨syn, t8⟩, e8, h⟩ := bind_ok h
  obtain ⟨⟨single, t9⟩, e9, h⟩ := bind_ok h
  obtain ⟨⟨collective, t10⟩, e10, h⟩ := bind_ok h
  obtain ⟨⟨nomod, t11⟩, e11, h⟩ := bind_ok h
  obtain ⟨⟨usage, t12⟩, e12, h⟩ := bind_ok h
  obtain ⟨exts, e13, h⟩ := bind_ok h
  obtain ⟨_, e14, h⟩ := bind_ok h
  obtain ⟨_, e15, h⟩ := bind_ok h
  obtain ⟨_, e16, h⟩ := bind_ok h
  have h : AttributeType.mk oid name desc obsolete.isSome sup equality ordering substr syn single.isSome collective.isSome nomod.isSome usage exts = d := by
    simpa [pure, Except.pure] using h
  have n12 : Ends t11 → item "USAGE" usage ++ exts.map extensionText = [] := fun he =>
    have a := clause_ends e12 he; item_nothing a.1 (extensionLoop_ends e13 a.2)
  have n11 : Ends t10 → flag "NO-USER-MODIFICATION" nomod.isSome ++ _ = [] := fun he => have a := clause_ends e11 he; flag_nothing a.1 (n12 a.2)
  have n10 : Ends t9 → flag "COLLECTIVE" collective.isSome ++ _ = [] := fun he => have a := clause_ends e10 he; flag_nothing a.1 (n11 a.2)
  have n9 : Ends t8 → flag "SINGLE-VALUE" single.isSome ++ _ = [] := fun he => have a := clause_ends e9 he; flag_nothing a.1 (n10 a.2)
  have n8 : Ends t7 → item "SYNTAX" syn ++ _ = [] := fun he => have a := clause_ends e8 he; item_nothing a.1 (n9 a.2)
  have n7 : Ends t6 → item "SUBSTR" substr ++ _ = [] := fun he => have a := clause_ends e7 he; item_nothing a.1 (n8 a.2)
  have n6 : Ends t5 → item "ORDERING" ordering ++ _ = [] := fun he => have a := clause_ends e6 he; item_nothing a.1 (n7 a.2)
  have n5 : Ends t4 → item "EQUALITY" equality ++ _ = [] := fun he => have a := clause_ends e5 he; item_nothing a.1 (n6 a.2)
  have hname : name ≠ some [] := by simpa using require_ok e15
  rw [← h]
  exact {
    oid := require_ok e14
    name := names_printable e1 hname
    desc := desc_printable e2
    sup := word_printable e4 n5
    equality := word_printable e5 n6
    ordering := word_printable e6 n7
    substr := word_printable e7 n8
    syntax' := word_printable e8 n9
    usage := by
      rintro w rfl
      simpa [usageOk] using require_ok e16
    extensions := extensionLoop_ok e13 }

/-! Object classes. -/

/-- An object class that can be printed. -/
structure ObjectClass.Printable (d : ObjectClass) : Prop where
  oid : oidOk d.oid = true
  name : ∀ l, d.name = some l → NamesOk l
  desc : ∀ s, d.desc = some s → (39 : UInt8) ∉ s
  sup : d.sup ≠ [] → OidsOk d.sup [d.type]
  tuple : d.supTuple = decide (d.sup.length > 1)
  type : d.type = kw "ABSTRACT" ∨ d.type = kw "STRUCTURAL" ∨ d.type = kw "AUXILIARY"
  must : d.must ≠ [] → OidsOk d.must (item "MAY" (some? d.may))
  may : d.may ≠ [] → OidsOk d.may []

/-- What parsing a printed list gives. -/
def listed (l : List Bytes) : Option (Bool × List Bytes) := if l = [] then none else some (decide (l.length > 1), l)

theorem some?_listed (l : List Bytes) : some? l = (listed l).map fun x => listText x.2 := by
  unfold some? listed
  split <;> rfl

theorem listed_some {l : List Bytes} {y : Bool × List Bytes} (h : listed l = some y) : l ≠ [] ∧ y = (decide (l.length > 1), l) := by
  unfold listed at h
  split at h
  · cases h
  · rename_i hl
    cases h
    exact ⟨hl, rfl⟩

theorem listed_value (l : List Bytes) : listOf (listed l) = l := by
  unfold listed
  split
  · rename_i h; exact h.symm
  · rfl

theorem listed_tuple (l : List Bytes) : tupleOf (listed l) = decide (l.length > 1) := by
  unfold listed
  split
  · rename_i h; subst h; rfl
  · rfl

/-- The type, as three flags. -/
theorem type_flags {d : ObjectClass} (h : d.Printable) :
    [d.type] = flag "ABSTRACT" (decide (d.type = kw "ABSTRACT")) ++ (flag "STRUCTURAL" (decide (d.type = kw "STRUCTURAL")) ++
      flag "AUXILIARY" (decide (d.type = kw "AUXILIARY"))) := by
  rcases h.type with e | e | e <;> rw [e] <;> decide +kernel

theorem ObjectClass.roundtrip {d : ObjectClass} (h : d.Printable) : ObjectClass.parse d.text = .ok d := by
  have hs := newline_sep
  have H9 := heads_item (k := "MAY") ⟨by decide +kernel, by decide +kernel⟩ (some? d.may)
  have H8 := heads_append (heads_item (k := "MUST") ⟨by decide +kernel, by decide +kernel⟩ (some? d.must)) H9
  have H7 := heads_append (heads_flag (k := "AUXILIARY") ⟨by decide +kernel, by decide +kernel⟩ (decide (d.type = kw "AUXILIARY"))) H8
  have H6 := heads_append (heads_flag (k := "STRUCTURAL") ⟨by decide +kernel, by decide +kernel⟩ (decide (d.type = kw "STRUCTURAL"))) H7
  have H5 := heads_append (heads_flag (k := "ABSTRACT") ⟨by decide +kernel, by decide +kernel⟩ (decide (d.type = kw "ABSTRACT"))) H6
  have H4 := heads_append (heads_item (k := "SUP") ⟨by decide +kernel, by decide +kernel⟩ (some? d.sup)) H5
  have H3 := heads_append (heads_flag (k := "OBSOLETE") ⟨by decide +kernel, by decide +kernel⟩ d.obsolete) H4
  have H2 := heads_append (heads_item (k := "DESC") ⟨by decide +kernel, by decide +kernel⟩ (d.desc.map quoted)) H3
  have H1 := heads_append (heads_item (k := "NAME") ⟨by decide +kernel, by decide +kernel⟩ (d.name.map strList)) H2
  have e0 := opening_lines (oid_word h.oid) H1 hs
  obtain ⟨T1, e1, t1⟩ := item_step hs H1.after_fixed H2 ⟨by decide +kernel, by decide +kernel⟩ (by decide +kernel)
    (fun l hl => ⟨_, names_step (h.name l hl) _, H2.lstrip_more hs⟩)
  obtain ⟨T2, e2, t2⟩ := item_step hs t1 H3 ⟨by decide +kernel, by decide +kernel⟩ (by decide +kernel)
    (fun s hd => ⟨_, oneString_step (h.desc s hd), H3.lstrip_more hs⟩)
  obtain ⟨T3, e3, t3⟩ := flag_step hs t2 H4 ⟨by decide +kernel, by decide +kernel⟩ (by decide +kernel)
  rw [some?_listed d.sup] at t3
  obtain ⟨T4, e4, t4⟩ := item_step hs t3 H5 ⟨by decide +kernel, by decide +kernel⟩ (by decide +kernel)
    (f := oids) (fun y hy => by
      obtain ⟨h1, rfl⟩ := listed_some hy
      refine oids_step hs H5 ?_
      rcases h.sup h1 with a | a | ⟨a, b⟩
      · exact .inl a
      · exact .inr (.inl a)
      · cases b)
  obtain ⟨T5, e5, t5⟩ := flag_step hs t4 H6 ⟨by decide +kernel, by decide +kernel⟩ (by decide +kernel)
  obtain ⟨T6, e6, t6⟩ := flag_step hs t5 H7 ⟨by decide +kernel, by decide +kernel⟩ (by decide +kernel)
  obtain ⟨T7, e7, t7⟩ := flag_step hs t6 H8 ⟨by decide +kernel, by decide +kernel⟩ (by decide +kernel)
  rw [some?_listed d.must] at t7
  obtain ⟨T8, e8, t8⟩ := item_step hs t7 H9 ⟨by decide +kernel, by decide +kernel⟩ (by decide +kernel)
    (f := oids) (fun y hy => by
      obtain ⟨h1, rfl⟩ := listed_some hy
      exact oids_step hs H9 (h.must h1))
  rw [some?_listed d.may, ← List.append_nil (item "MAY" _)] at t8
  obtain ⟨T9, e9, t9⟩ := item_step hs t8 heads_nil ⟨by decide +kernel, by decide +kernel⟩ (by decide +kernel)
    (f := oids) (fun y hy => by
      obtain ⟨h1, rfl⟩ := listed_some hy
      exact oids_step hs heads_nil (h.may h1))
  have r0 : require (decide (lstrip T9 = [])) = .ok () := by rw [show lstrip T9 = [] from t9]; rfl
  have r1 : require (oidOk d.oid) = .ok () := by rw [h.oid]; rfl
  have r2 : require (d.name ≠ some []) = .ok () := by
    have : d.name ≠ some [] := fun e => (h.name [] e).some rfl
    simp [require, this]
  have r3 : require (!((decide (d.type = kw "STRUCTURAL")) && (decide (d.type = kw "ABSTRACT")))) = .ok () := by
    rcases h.type with e | e | e <;> rw [e] <;> decide +kernel
  have r4 : require (!((decide (d.type = kw "AUXILIARY")) && ((decide (d.type = kw "ABSTRACT")) || (decide (d.type = kw "STRUCTURAL"))))) = .ok () := by
    rcases h.type with e | e | e <;> rw [e] <;> decide +kernel
  have r5 : (if decide (d.type = kw "ABSTRACT") = true then kw "ABSTRACT" else if decide (d.type = kw "AUXILIARY") = true then kw "AUXILIARY" else kw "STRUCTURAL") = d.type := by
    rcases h.type with e | e | e <;> rw [e] <;> decide +kernel
  have ht : d.text = [40, 32] ++ d.oid ++ [32] ++ join newline (item "NAME" (d.name.map strList) ++ (item "DESC" (d.desc.map quoted) ++
      (flag "OBSOLETE" d.obsolete ++ (item "SUP" (some? d.sup) ++ (flag "ABSTRACT" (decide (d.type = kw "ABSTRACT")) ++
      (flag "STRUCTURAL" (decide (d.type = kw "STRUCTURAL")) ++ (flag "AUXILIARY" (decide (d.type = kw "AUXILIARY")) ++
      (item "MUST" (some? d.must) ++ item "MAY" (some? d.may))))))))) ++ [32, 41] := by
    unfold ObjectClass.text
    rw [type_flags h]
    congr 3
    simp only [List.append_assoc]
  rw [ht]
  unfold ObjectClass.parse
  simp only [e0, e1, e2, e3, e4, e5, e6, e7, e8, e9, r0, r1, r2, bind, Except.bind, pure, Except.pure, flag_isSome]
  simp only [r3, r4, r5, listed_value, listed_tuple, ← h.tuple]

/-! Syntaxes. -/

/-- A syntax that can be printed. -/
structure SyntaxDescription.Printable (d : SyntaxDescription) : Prop where
  oid : oidOk d.oid = true
  desc : ∀ s, d.desc = some s → (39 : UInt8) ∉ s

theorem flag_item (b : Bool) : flag "X-BINARY-TRANSFER-REQUIRED 'TRUE'" b =
    item "X-BINARY-TRANSFER-REQUIRED" ((if b then some () else none).map fun _ => kw "'TRUE'") := by
  cases b <;> decide +kernel

theorem flag_item' (b : Bool) : flag "X-NOT-HUMAN-READABLE 'TRUE'" b =
    item "X-NOT-HUMAN-READABLE" ((if b then some () else none).map fun _ => kw "'TRUE'") := by
  cases b <;> decide +kernel

theorem skip_step {ks l : List Bytes} {sep : Bytes} (hs : Sep sep) (hl : Heads ks l) :
    ∃ T', skip 7 (kw "'TRUE'" ++ more sep l) = .ok ((), T') ∧ lstrip T' = after sep l := by
  refine ⟨(more sep l).drop 1, ?_, hl.lstrip_drop hs⟩
  have : kw "'TRUE'" = [39, 84, 82, 85, 69, 39] := by decide +kernel
  simp [skip, this]

theorem SyntaxDescription.roundtrip {d : SyntaxDescription} (h : d.Printable) : SyntaxDescription.parse d.text = .ok d := by
  have hs := space_sep
  have H3 := heads_item (k := "X-NOT-HUMAN-READABLE") ⟨by decide +kernel, by decide +kernel⟩
    ((if !d.humanReadable then some () else none).map fun _ => kw "'TRUE'")
  have H2 := heads_append (heads_item (k := "X-BINARY-TRANSFER-REQUIRED") ⟨by decide +kernel, by decide +kernel⟩
    ((if d.binaryTransferRequired then some () else none).map fun _ => kw "'TRUE'")) H3
  have H1 := heads_append (heads_item (k := "DESC") ⟨by decide +kernel, by decide +kernel⟩ (d.desc.map quoted)) H2
  have e0 := opening_words (oid_word h.oid) H1
  obtain ⟨T1, e1, t1⟩ := item_step hs H1.after_fixed H2 ⟨by decide +kernel, by decide +kernel⟩ (by decide +kernel)
    (fun s hd => ⟨_, oneString_step (h.desc s hd), H2.lstrip_more hs⟩)
  obtain ⟨T2, e2, t2⟩ := item_step hs t1 H3 ⟨by decide +kernel, by decide +kernel⟩ (by decide +kernel)
    (f := skip 7) (fun _ _ => skip_step hs H3)
  rw [← List.append_nil (item "X-NOT-HUMAN-READABLE" _)] at t2
  obtain ⟨T3, e3, t3⟩ := item_step hs t2 heads_nil ⟨by decide +kernel, by decide +kernel⟩ (by decide +kernel)
    (f := skip 7) (fun _ _ => skip_step hs heads_nil)
  have r0 : require (decide (lstrip T3 = [])) = .ok () := by rw [show lstrip T3 = [] from t3]; rfl
  have r1 : require (oidOk d.oid) = .ok () := by rw [h.oid]; rfl
  have ht : d.text = [40, 32] ++ join [32] ([d.oid] ++ (item "DESC" (d.desc.map quoted) ++
      (item "X-BINARY-TRANSFER-REQUIRED" ((if d.binaryTransferRequired then some () else none).map fun _ => kw "'TRUE'") ++
        item "X-NOT-HUMAN-READABLE" ((if !d.humanReadable then some () else none).map fun _ => kw "'TRUE'")))) ++ [32, 41] := by
    unfold SyntaxDescription.text
    rw [flag_item, flag_item']
    congr 3
    simp only [List.append_assoc]
  rw [ht]
  unfold SyntaxDescription.parse
  simp only [e0, e1, e2, e3, r0, r1, bind, Except.bind, pure, Except.pure, flag_isSome, Bool.not_not]

theorem SyntaxDescription.printable {t : Bytes} {d : SyntaxDescription} (h : SyntaxDescription.parse t = .ok d) : d.Printable := by
  unfold SyntaxDescription.parse at h
  obtain ⟨⟨oid, t0⟩, e0, h⟩ := bind_ok h
  obtain ⟨⟨desc, t1⟩, e1, h⟩ := bind_ok h
  obtain ⟨⟨binary, t2⟩, e2, h⟩ := bind_ok h
  obtain ⟨⟨unreadable, t3⟩, e3, h⟩ := bind_ok h
  obtain ⟨_, e4, h⟩ := bind_ok h
  obtain ⟨_, e5, h⟩ := bind_ok h
  have h : SyntaxDescription.mk oid desc binary.isSome (!unreadable.isSome) = d := by simpa [pure, Except.pure] using h
  rw [← h]
  exact ⟨require_ok e5, desc_printable e1⟩

/-! Matching rules. -/

/-- A matching rule that can be printed. -/
structure MatchingRule.Printable (d : MatchingRule) : Prop where
  oid : oidOk d.oid = true
  name : ∀ l, d.name = some l → NamesOk l
  desc : ∀ s, d.desc = some s → (39 : UInt8) ∉ s
  syntax' : Word d.syntax'

theorem MatchingRule.roundtrip {d : MatchingRule} (h : d.Printable) : MatchingRule.parse d.text = .ok d := by
  have hs := space_sep
  have H4 := heads_item (k := "SYNTAX") ⟨by decide +kernel, by decide +kernel⟩ (some d.syntax')
  have H3 := heads_append (heads_flag (k := "OBSOLETE") ⟨by decide +kernel, by decide +kernel⟩ d.obsolete) H4
  have H2 := heads_append (heads_item (k := "DESC") ⟨by decide +kernel, by decide +kernel⟩ (d.desc.map quoted)) H3
  have H1 := heads_append (heads_item (k := "NAME") ⟨by decide +kernel, by decide +kernel⟩ (d.name.map strList)) H2
  have e0 := opening_words (oid_word h.oid) H1
  obtain ⟨T1, e1, t1⟩ := item_step hs H1.after_fixed H2 ⟨by decide +kernel, by decide +kernel⟩ (by decide +kernel)
    (fun l hl => ⟨_, names_step (h.name l hl) _, H2.lstrip_more hs⟩)
  obtain ⟨T2, e2, t2⟩ := item_step hs t1 H3 ⟨by decide +kernel, by decide +kernel⟩ (by decide +kernel)
    (fun s hd => ⟨_, oneString_step (h.desc s hd), H3.lstrip_more hs⟩)
  obtain ⟨T3, e3, t3⟩ := flag_step hs t2 H4 ⟨by decide +kernel, by decide +kernel⟩ (by decide +kernel)
  rw [item_map_id, ← List.append_nil (item "SYNTAX" _)] at t3
  obtain ⟨T4, e4, t4⟩ := item_step hs t3 heads_nil ⟨by decide +kernel, by decide +kernel⟩ (by decide +kernel)
    (f := oneWord) (fun w hw => ⟨_, oneWord_step hs heads_nil (.inl (by cases hw; exact h.syntax')), heads_nil.after_fixed⟩)
  have r0 : require (decide (lstrip T4 = [])) = .ok () := by rw [show lstrip T4 = [] from t4]; rfl
  have r1 : require (oidOk d.oid) = .ok () := by rw [h.oid]; rfl
  have r2 : require (decide (d.syntax' ≠ [])) = .ok () := by simp [require, h.syntax'.1]
  have ht : d.text = [40, 32] ++ join [32] ([d.oid] ++ (item "NAME" (d.name.map strList) ++ (item "DESC" (d.desc.map quoted) ++
      (flag "OBSOLETE" d.obsolete ++ item "SYNTAX" (some d.syntax'))))) ++ [32, 41] := by
    unfold MatchingRule.text
    congr 3
    simp only [List.append_assoc]
  rw [ht]
  unfold MatchingRule.parse
  simp only [e0, e1, e2, e3, e4, r0, r1, r2, bind, Except.bind, pure, Except.pure, flag_isSome]

theorem MatchingRule.printable {t : Bytes} {d : MatchingRule} (h : MatchingRule.parse t = .ok d) (hn : d.name ≠ some []) : d.Printable := by
  unfold MatchingRule.parse at h
  obtain ⟨⟨oid, t0⟩, e0, h⟩ := bind_ok h
  obtain ⟨⟨name, t1⟩, e1, h⟩ := bind_ok h
  obtain ⟨⟨desc, t2⟩, e2, h⟩ := bind_ok h
  obtain ⟨⟨obsolete, t3⟩, e3, h⟩ := bind_ok h
  obtain ⟨⟨syn, t4⟩, e4, h⟩ := bind_ok h
  obtain ⟨_, e5, h⟩ := bind_ok h
  obtain ⟨_, e6, h⟩ := bind_ok h
  cases syn with
  | none => cases h
  | some s =>
    obtain ⟨_, e7, h⟩ := bind_ok h
    have h : MatchingRule.mk oid name desc obsolete.isSome s = d := by simpa [pure, Except.pure] using h
    subst h
    refine ⟨require_ok e6, names_printable e1 hn, desc_printable e2, ?_⟩
    obtain ⟨u, hu⟩ := clause_ok e4
    rcases oneWord_ok hu with hw | ⟨hw, _⟩
    · exact hw
    · exact absurd hw (by simpa using require_ok e7)

end Verif.Schema
