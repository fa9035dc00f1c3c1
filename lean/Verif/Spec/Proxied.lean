import Verif.Spec.Server
import Verif.Spec.Search
import Verif.Spec.Size
import Verif.Spec.Stream
import Verif.Model.ProxySession
/-
Specification vocabulary for a session through a proxy: the same session without the proxy, and the requests that a proxy
should pass on without a trace.
-/
namespace Verif.Spec
open Verif.Ldap

/-- The server when it is handed the octets directly, in these segments. -/
def direct (env : Server.Env) (lucks : Nat → Server.Luck) (st : Server.State) (segments : List Bytes) : ProxySession.Serving :=
  (Conn.feed (ProxySession.serverHandle env lucks) (Conn.fresh ⟨st, [], 0⟩) segments).st

/-- A request that is nobody's business but the server's: not StartTLS, not abandon, no critical control; request and
entries are of moderate size. -/
structure Passable (luck : Server.Luck) (st : Server.State) (m : Msg) : Prop where
  id : 0 < m.id ∧ m.id < 2 ^ 31
  wf : m.op.WF
  size : m.op.size < 2 ^ 50
  kind : Answerable m.op.build ∨ m.op = .unbind
  plain : ∀ v, m.op ≠ .extRequest Client.startTLSOid v
  uncritical : ∀ cs ∈ m.controls, ∀ c ∈ cs, c.critical ≠ some true
  fits : Fits luck st m.op.build none
  entries : ∀ n ∈ st.heap, Modest n.entry []

/-- A session of such requests; each is judged in the state in which the server would be handed it directly.  Nothing
follows an unbind. -/
structure Session (env : Server.Env) (lucks : Nat → Server.Luck) (st : Server.State) (ms : List Msg) : Prop where
  few : ms.length < 2 ^ 31 - 1
  last : ∀ k m, ms[k]? = some m → m.op = .unbind → k + 1 = ms.length
  each : ∀ k m b, ms[k]? = some m → Wires ((ms.take k).map Msg.build) b →
    Passable (lucks k) (direct env lucks st [b]).state m

end Verif.Spec
