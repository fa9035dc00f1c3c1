import Verif.Lemmas.Wire
/-
C04  A partially received message is always reported as incomplete.
-/
namespace Verif.C04
open Verif.Ldap Verif.Spec

/-- Every non-empty strict prefix of a complete element is reported as insufficient data, in every decoding
context; for the empty prefix nothing is decoded and nothing consumed. -/
theorem strict_prefix_incomplete (ctx : Ctx) (w p s : Bytes) (hw : IsElement w) (hp : w = p ++ s) (hs : s ≠ []) :
    berDecodeObject ctx p = if p = [] then .ok (none, 0) else .error .insufficientData := by
  split
  · rename_i h; subst h; exact berDecodeObject_nil ctx
  · rename_i hne
    cases hh : header p with
    | none => exact berDecodeObject_no_header ctx hne hh
    | some x =>
      obtain ⟨h, c⟩ := x
      obtain ⟨h', c', hh', hn, _⟩ := hw
      rw [hp, header_append hh s] at hh'
      simp only [Option.some.injEq, Prod.mk.injEq] at hh'
      apply berDecodeObject_short ctx hh
      have : 0 < s.length := List.length_pos_iff.mpr hs
      rw [hp, List.length_append] at hn
      omega

example : IsElement [0x04, 0x03, 1, 2, 3] := ⟨2, 3, rfl, rfl, by decide⟩

/-- Everything the library encodes is such an element, so any cut of an encoded message is reported as incomplete. -/
theorem encoded_prefix_incomplete (ctx : Ctx) (o : Obj) (w p s : Bytes) (hw : toWire o = .ok w)
    (hp : w = p ++ s) (hs : s ≠ []) (hne : p ≠ []) :
    berDecodeObject ctx p = .error .insufficientData := by
  rw [strict_prefix_incomplete ctx w p s (toWire_isElement hw) hp hs, if_neg hne]

example : toWire (.message (.int 1) (.null .unbindRequest 0x42) none) =
    .ok ([0x30, 0x05, 0x02] ++ [0x01, 0x01, 0x42, 0x00]) := by decide +kernel

/-- Two different encodings are never prefixes of one another: messages in a stream are self-delimiting. -/
theorem encodings_prefix_free (o₁ o₂ : Obj) (w₁ w₂ r₁ r₂ : Bytes) (h₁ : toWire o₁ = .ok w₁)
    (h₂ : toWire o₂ = .ok w₂) (h : w₁ ++ r₁ = w₂ ++ r₂) : w₁ = w₂ := by
  obtain ⟨a, b, hh, hn, _⟩ := toWire_isElement h₁
  obtain ⟨a', b', hh', hn', _⟩ := toWire_isElement h₂
  have e1 := header_append hh r₁
  have e2 := header_append hh' r₂
  rw [h, e2] at e1
  simp only [Option.some.injEq, Prod.mk.injEq] at e1
  have hl : w₁.length = w₂.length := by omega
  exact (List.append_inj h hl).1

end Verif.C04
