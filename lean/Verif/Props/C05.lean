import Verif.Lemmas.Element
/-
C05  Unknown elements inside a structure are skipped without disturbing the others.
-/
namespace Verif.C05
open Verif.Ldap Verif.Spec

/-- Inserting an element with a tag unknown to the context after any number of complete elements, and before any bytes
whatsoever, leaves the verdict (the decoded elements, or the error) unchanged. -/
theorem unknown_element_skipped (ctx : Ctx) (before u after : Bytes) (hb : Elements before) (hu : IsElement u)
    (hunk : ctx.lookup (tagOf u) = none) :
    berDecodeMultiple (before ++ (u ++ after)) ctx = berDecodeMultiple (before ++ after) ctx := by
  induction hb with
  | nil =>
    rw [List.nil_append, List.nil_append, berDecodeMultiple_cons ctx hu, berDecodeObject_unknown ctx hu hunk]
    simp only [bind, Except.bind]
    cases berDecodeMultiple after ctx <;> rfl
  | cons w rest hw _ ih =>
    rw [List.append_assoc, List.append_assoc, berDecodeMultiple_cons ctx hw, berDecodeMultiple_cons ctx hw, ih]

/-- A structure made of unknown elements only decodes to the empty list. -/
theorem all_unknown (ctx : Ctx) (us : List Bytes) (h : ∀ u ∈ us, IsElement u ∧ ctx.lookup (tagOf u) = none) :
    berDecodeMultiple us.flatten ctx = .ok [] := by
  induction us with
  | nil => exact berDecodeMultiple_nil ctx
  | cons u us ih =>
    have hu := h u (by simp)
    have := unknown_element_skipped ctx [] u us.flatten Elements.nil hu.1 hu.2
    simp only [List.nil_append] at this
    rw [List.flatten_cons, this, ih (fun v hv => h v (by simp [hv]))]

/-- The decoded elements of a concatenation are the decoded elements of the parts, in order. -/
theorem elements_in_order (ctx : Ctx) (before after : Bytes) (hb : Elements before) (l r : List Obj)
    (h1 : berDecodeMultiple before ctx = .ok l) (h2 : berDecodeMultiple after ctx = .ok r) :
    berDecodeMultiple (before ++ after) ctx = .ok (l ++ r) := by
  induction hb generalizing l with
  | nil => rw [berDecodeMultiple_nil] at h1; cases h1; simpa using h2
  | cons w rest hw _ ih =>
    rw [List.append_assoc, berDecodeMultiple_cons ctx hw]
    rw [berDecodeMultiple_cons ctx hw] at h1
    cases hd : berDecodeObject ctx w with
    | error e => rw [hd] at h1; cases h1
    | ok v =>
      rw [hd] at h1
      cases hr : berDecodeMultiple rest ctx with
      | error e => rw [hr] at h1; cases h1
      | ok l' =>
        rw [hr] at h1
        simp only [bind, Except.bind, pure, Except.pure, Except.ok.injEq] at h1
        simp only [bind, Except.bind, pure, Except.pure, ih l' hr, ← h1]
        cases v.1 <;> rfl

-- an unknown context-class element between two integers
example : IsElement [0x9E, 0x01, 0x00] ∧ (Ctx.base .ber).lookup (tagOf [0x9E, 0x01, 0x00]) = none ∧
    Elements [0x02, 0x01, 0x2A] :=
  ⟨⟨2, 1, rfl, rfl, by decide⟩, rfl, Elements.cons [0x02, 0x01, 0x2A] [] ⟨2, 1, rfl, rfl, by decide⟩ Elements.nil⟩

example : berDecodeMultiple [0x02, 0x01, 0x2A, 0x9E, 0x01, 0x00, 0x02, 0x01, 0x07] (.base .ber) =
    .ok [.int .integer 2 42, .int .integer 2 7] := by rfl

end Verif.C05
