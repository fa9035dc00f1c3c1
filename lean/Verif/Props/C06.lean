import Verif.Lemmas.RoundtripOp
import Verif.Lemmas.Total
/-
C06  Every LDAP message survives the wire.

Full statement: `message_roundtrip_partial` without the hypothesis `m.op.WF`.  It is false for one corner: present but
empty SASL credentials are written like absent ones (`empty_credentials_lost`), and `WF` excludes exactly that corner.
Missing: nothing else.
-/
namespace Verif.C06
open Verif.Ldap Verif.Spec

/-- Encoding any message - every request and response type, any nesting of filters, any controls - and decoding it on
a connection, whatever bytes follow, gives a message with the same id, the same operation with the same fields and the
same controls, and consumes exactly the encoded bytes. -/
theorem message_roundtrip_partial (m : Msg) (hwf : m.op.WF) (w rest : Bytes) (h : toWire m.build = .ok w) :
    ∃ o, berDecodeObject topCtx (w ++ rest) = .ok (some o, w.length) ∧ readMsg o = some m := by
  obtain ⟨o, _, ho, hr⟩ := dec_message m hwf h
  refine ⟨o, ?_, hr⟩
  rw [berDecodeObject_append _ ho.1]
  exact ho.2

/-- Filters of any depth survive inside any structure, and come back as exactly the objects that were written. -/
theorem filter_roundtrip (f : Filter) (w rest : Bytes) (h : toWire f.build = .ok w) :
    berDecodeObject (.both .filter ldapCtx ldapCtx) (w ++ rest) = .ok (some f.build, w.length) ∧
    readFilter f.build = some f := by
  have := Dec.filter f (FilterCtx.both (c := ldapCtx) Good.ldap) h
  refine ⟨?_, readFilter_build f⟩
  rw [berDecodeObject_append _ this.1]
  exact this.2

/-- Different messages are written differently: the encoding loses nothing. -/
theorem encoding_injective_partial (m₁ m₂ : Msg) (h₁ : m₁.op.WF) (h₂ : m₂.op.WF) (w : Bytes)
    (hw₁ : toWire m₁.build = .ok w) (hw₂ : toWire m₂.build = .ok w) : m₁ = m₂ := by
  obtain ⟨o₁, ho₁, hr₁⟩ := message_roundtrip_partial m₁ h₁ w [] hw₁
  obtain ⟨o₂, ho₂, hr₂⟩ := message_roundtrip_partial m₂ h₂ w [] hw₂
  rw [ho₁] at ho₂
  simp only [Except.ok.injEq, Prod.mk.injEq, Option.some.injEq, and_true] at ho₂
  rw [← ho₂, hr₁] at hr₂
  exact Option.some.inj hr₂

/-- A search request with a nested filter and a critical control. -/
def sample : Msg :=
  ⟨5, .search [0x64] 2 0 0 0 true (.and [.not (.present [0x61]), .equal [0x62] [0x63]]) [[0x78]],
    some [⟨[0x31], some true, none⟩]⟩

example : sample.op.WF ∧ toWire sample.build = .ok [48, 53, 2, 1, 5, 99, 38, 4, 1, 100, 10, 1, 2, 10, 1, 0, 2, 1, 0,
    2, 1, 0, 1, 1, 255, 160, 13, 162, 3, 135, 1, 97, 163, 6, 4, 1, 98, 4, 1, 99, 48, 3, 4, 1, 120, 160, 8, 48, 6, 4, 1,
    49, 1, 1, 255] := ⟨trivial, by decide +kernel⟩

/-- Encoding does not fail: every message whose fields stay below the BER limit of `256 ^ 127` octets is encoded, and
comes back. -/
theorem message_encodes_and_returns_partial (m : Msg) (hwf : m.op.WF) (hsize : m.size < lengthLimit) (rest : Bytes) :
    ∃ w o, toWire m.build = .ok w ∧ berDecodeObject topCtx (w ++ rest) = .ok (some o, w.length) ∧
      readMsg o = some m := by
  obtain ⟨w, hw, _⟩ := W.msg m hsize
  obtain ⟨o, ho⟩ := message_roundtrip_partial m hwf w rest hw
  exact ⟨w, o, hw, ho⟩

example : sample.op.WF ∧ sample.size < lengthLimit :=
  ⟨trivial, Nat.lt_of_lt_of_le (m := 256 ^ 2) (by decide) (Nat.pow_le_pow_right (by decide) (by decide))⟩

/-- The side condition on SASL credentials is needed: empty credentials are written like absent ones
(pureldap.py:209 and 333 test the truth value instead of `is not None`). -/
theorem empty_credentials_lost :
    toWire (⟨1, .bindSasl 3 [] [0x58] (some []), none⟩ : Msg).build =
      toWire (⟨1, .bindSasl 3 [] [0x58] none, none⟩ : Msg).build := by decide +kernel

end Verif.C06
