import Verif.Spec.Proxied
import Verif.Spec.Client
import Verif.Spec.Each
import Verif.Model.Concurrent
/-
Specification vocabulary for a client with several requests under way.
-/
namespace Verif.Spec
open Verif.Ldap Verif.Client

/-- A call that sends a request and waits for its answers: a search with a handler, any other request without. -/
inductive Requesting (c : Nat) : Call → Prop where
  | send {op : Obj} (ha : Answerable op) (hs : ∀ t b s d sl tl ty f as, op ≠ .searchRequest t b s d sl tl ty f as) :
      Requesting c (.send c op none)
  | sendMulti {t b s d sl tl ty f as} : Requesting c (.sendMulti c (.searchRequest t b s d sl tl ty f as) true)
  | sendMultiEx {t b s d sl tl ty f as} : Requesting c (.sendMultiEx c (.searchRequest t b s d sl tl ty f as) none true)
  | bind {dn auth : PyVal} : Requesting c (.bind c dn auth)

/-- An application that makes requests whenever it is told something, and whose handlers want responses until the search is
done. -/
structure Collecting (c : Nat) (app : App) : Prop where
  calls : ∀ log, ∀ x ∈ (app log).calls, Requesting c x
  calm : ∀ log, (app log).raises = false
  final : ∀ log d op controls, (app (log ++ [.handled d op controls])).final = true ↔
    ∃ t code mdn msg creds, op = .result .searchResultDone t code mdn msg creds

/-- The requests made on the connection `c`, in order: the message id, who wants the answers, and the operation. -/
def asked (c : Nat) (log : List Note) : List (Int × Pending × Obj) :=
  log.filterMap fun n => match n with | .sent j id p op => if j = c then some (id, p, op) else none | _ => none

/-- What the Deferred `d` and its handler have been told. -/
def told (d : Nat) (log : List Note) : List Note :=
  log.filter fun n => match n with | .handled d' _ _ => d' = d | .fired d' _ => d' = d | .dropped d' => d' = d | _ => false

/-- The responses with a message id. -/
def answersTo (id : Int) (sent : List (PyVal × Obj)) : List Obj := (sent.filter fun m => m.1 = .int id).map (·.2)

/-- The messages that were sent for these requests. -/
def Messages (ms : List Msg) (requests : List (Int × Pending × Obj)) : Prop :=
  ms.map (fun m => (m.id, m.op.build, m.controls)) = requests.map fun r => (r.1, r.2.2, none)

end Verif.Spec
