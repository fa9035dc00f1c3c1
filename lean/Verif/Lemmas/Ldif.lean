import Verif.Model.Ldif
/-
Lines and chunks.
-/
namespace Verif.Ldif

theorem cut_noNewline {b : Bytes} (h : 10 ∉ b) : cut b = ([], b) := by
  induction b with
  | nil => rfl
  | cons x b ih =>
    simp only [List.mem_cons, not_or] at h
    rw [cut, if_neg (fun e => h.1 e.symm), ih h.2]

theorem cut_line {l : Bytes} (h : 10 ∉ l) (r : Bytes) : cut (l ++ 10 :: r) = (l :: (cut r).1, (cut r).2) := by
  induction l with
  | nil => simp [cut]
  | cons x l ih =>
    simp only [List.mem_cons, not_or] at h
    rw [List.cons_append, cut, if_neg (fun e => h.1 e.symm), ih h.2]

theorem cut_rest (b : Bytes) : 10 ∉ (cut b).2 := by
  induction b with
  | nil => simp [cut]
  | cons x b ih =>
    rw [cut]
    split
    · exact ih
    · rename_i hx
      split
      · rename_i rest he
        rw [he] at ih
        simp only [List.mem_cons, not_or]
        exact ⟨fun e => hx e.symm, ih⟩
      · rename_i l ls rest he
        rw [he] at ih
        exact ih

theorem firstNewline (b : Bytes) : 10 ∉ b ∨ ∃ l t, b = l ++ 10 :: t ∧ 10 ∉ l := by
  induction b with
  | nil => simp
  | cons x b ih =>
    by_cases hx : x = 10
    · exact .inr ⟨[], b, by simp [hx], by simp⟩
    · rcases ih with h | ⟨l, t, rfl, h⟩
      · exact .inl (by simp only [List.mem_cons, not_or]; exact ⟨fun e => hx e.symm, h⟩)
      · exact .inr ⟨x :: l, t, rfl, by simp only [List.mem_cons, not_or]; exact ⟨fun e => hx e.symm, h⟩⟩

theorem cut_append (a b : Bytes) : cut (a ++ b) = ((cut a).1 ++ (cut ((cut a).2 ++ b)).1, (cut ((cut a).2 ++ b)).2) := by
  induction a with
  | nil => simp [cut]
  | cons x a ih =>
    rw [List.cons_append, cut]
    by_cases hx : x = 10
    · rw [if_pos hx, cut, if_pos hx, ih]; simp
    · rw [if_neg hx]
      have hc : cut (x :: a) = match cut a with
        | ([], rest) => ([], x :: rest)
        | (l :: ls, rest) => ((x :: l) :: ls, rest) := by rw [cut, if_neg hx]; rfl
      rw [hc]
      generalize hca : cut a = c at ih
      obtain ⟨ls, rest⟩ := c
      rw [ih]
      cases ls with
      | nil =>
        simp only [List.nil_append, List.cons_append]
        rw [cut, if_neg hx]
      | cons l ls => simp

theorem drain_append (U : Unicode) (rest : Bytes) (p : Parser) (ls ms : List Bytes) :
    drain U rest p (ls ++ ms) = match drain U [] p ls with
      | ⟨p, _, none⟩ => drain U rest p ms
      | r => r := by
  induction ls generalizing p with
  | nil => simp [drain]
  | cons l ls ih =>
    rw [List.cons_append, drain, drain]
    split
    · rfl
    · cases lineReceived U p l with
      | error e => rfl
      | ok p => exact ih p

theorem drain_rest (U : Unicode) (rest : Bytes) (p : Parser) (ls : List Bytes) :
    drain U rest p ls = match drain U [] p ls with
      | ⟨p, _, none⟩ => if maxLength + 1 ≤ rest.length then ⟨p, [], some (.py .attributeError)⟩ else ⟨p, rest, none⟩
      | r => r := by
  have := drain_append U rest p ls []
  rw [List.append_nil] at this
  rw [this]
  rfl

theorem dataReceived_append (U : Unicode) (r : Reader) (a b : Bytes) :
    dataReceived U (dataReceived U r a) b = dataReceived U r (a ++ b) := by
  obtain ⟨p, buf, raised⟩ := r
  cases raised with
  | some e => rfl
  | none =>
    simp only [dataReceived]
    rw [← List.append_assoc, cut_append (buf ++ a) b]
    generalize hc : cut (buf ++ a) = c
    have hrest := cut_rest (buf ++ a)
    rw [hc] at hrest
    obtain ⟨ls, rest⟩ := c
    simp only at hrest ⊢
    rw [drain_append, drain_rest]
    generalize drain U [] p ls = d
    obtain ⟨p', buf', r'⟩ := d
    cases r' with
    | some e => rfl
    | none =>
      simp only
      by_cases hlen : maxLength + 1 ≤ rest.length
      · rw [if_pos hlen]
        rcases firstNewline b with hb | ⟨l, t, rfl, hl⟩
        · have : 10 ∉ rest ++ b := by simp [hrest, hb]
          rw [cut_noNewline this]
          simp only [drain, List.length_append]
          rw [if_pos (by omega)]
        · have : 10 ∉ rest ++ l := by simp [hrest, hl]
          rw [← List.append_assoc rest, cut_line this]
          simp only [drain, List.length_append]
          rw [if_pos (by omega)]
      · rw [if_neg hlen]

theorem feed_dataReceived (U : Unicode) (r : Reader) (a : Bytes) (chunks : List Bytes) :
    feed U (dataReceived U r a) chunks = dataReceived U r (a ++ chunks.flatten) := by
  induction chunks generalizing a with
  | nil => simp [feed]
  | cons c cs ih =>
    have h : feed U (dataReceived U r a) (c :: cs) = feed U (dataReceived U (dataReceived U r a) c) cs := rfl
    rw [h, dataReceived_append, ih, List.flatten_cons, List.append_assoc]

theorem feed_flatten (U : Unicode) (d : Bool) (chunks : List Bytes) :
    feed U (fresh d) chunks = dataReceived U (fresh d) chunks.flatten := by
  cases chunks with
  | nil => rfl
  | cons c cs => exact feed_dataReceived U (fresh d) c cs

end Verif.Ldif
