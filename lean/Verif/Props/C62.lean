import Verif.Model.Connector
/-
C62  A configured server location is used as configured.
-/
namespace Verif.C62
open Verif.Connector

/-- No SRV query is made exactly if the override gives both host and port; a callable override replaces the connection. -/
theorem query_iff (o : Option Override) : connect o = .query ↔ o ≠ some .call ∧ ∀ h p, o ≠ some (.location ⟨some h, some p⟩) := by
  rcases o with _ | (_ | ⟨_ | h, _ | p⟩) <;> simp [connect, isQueryNeeded]

/-- The host that is connected to is the configured one, and the one from DNS only if none is configured; the same for the
port, which is a number whenever it can be read as one. -/
theorem location_used (l : Location) (srv : Str × Port) :
    (pickServer (some l) srv).1 = (match l.host with | some h => h | none => srv.1) ∧
    (pickServer (some l) srv).2 = intPort (match l.port with | some p => p | none => srv.2) := by
  obtain ⟨_ | h, _ | p⟩ := l <;> simp [pickServer]

/-- Without an override the answer of DNS is used. -/
theorem no_override (srv : Str × Port) : pickServer none srv = (srv.1, intPort srv.2) := rfl

/-- With host and port configured, what DNS would say does not matter. -/
theorem independent_of_dns (h : Str) (p : Port) (srv srv' : Str × Port) :
    pickServer (some ⟨some h, some p⟩) srv = pickServer (some ⟨some h, some p⟩) srv' := rfl

example : pickServer (some ⟨some "host".toList, none⟩) ("srv".toList, .num 636) = ("host".toList, .num 636) ∧
    pickServer (some ⟨none, some (.text "38942".toList)⟩) ("srv".toList, .num 636) = ("srv".toList, .num 38942) := by decide +kernel

end Verif.C62
