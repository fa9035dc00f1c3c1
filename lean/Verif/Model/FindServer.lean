import Verif.Model.Dn
import Verif.Model.Decimal
/-
Model of /repo/ldaptor/_scripts/find_server.py: print the servers that the DNS names for the domain of each DN.

Simplifications: the resolver is left out; the model takes what it reports, in the order in which it does.  A record is an SRV
record or another one; the name of a target is text.
-/
namespace Verif.FindServer
open Verif.Dn

/-- The payload of an SRV record. -/
structure Srv where
  priority : Nat
  weight : Nat
  target : Str
  port : Nat
  deriving DecidableEq, Repr

/-- A record of an answer. -/
inductive Record where
  | srv (r : Srv)
  | other
  deriving DecidableEq, Repr

/-- What becomes of a question: the answers, the authority and the additional records, or a failure with its message. -/
inductive Reply where
  | found (sections : List (List Record))
  | failed (message : Str)
  deriving DecidableEq, Repr

/-- find_server.py:12-21: the line of a record. -/
def line (dn : Str) (r : Srv) : Str :=
  dn ++ "\tpri=".toList ++ Decimal.ofInt r.priority ++ " weight=".toList ++ Decimal.ofInt r.weight ++ [' '] ++ r.target ++ [':']
    ++ Decimal.ofInt r.port ++ ['\n']

/-- find_server.py:10-24: one record. -/
def printRecord (dn : Str) : Record → Str
  | .srv r => line dn r
  | .other => []

/-- find_server.py:8-25 `printAnswer` -/
def printAnswer (dn : Str) (sections : List (List Record)) : Str :=
  sections.flatMap fun rrlist => rrlist.flatMap (printRecord dn)

/-- find_server.py:42-45: the name that is asked for; a missing domain is formatted as `None`. -/
def question (upper : Str → Str) (d : Dn) : Str := "_ldap._tcp.".toList ++ (d.getDomainName upper).getD "None".toList

/-- find_server.py:41-48: the names asked for, until a DN cannot be read. -/
def ask (U : Unicode) (upper : Str → Str) : List Str → List Str × Py Unit
  | [] => ([], .ok ())
  | s :: ss =>
    match Dn.parse U s with
    | .error e => ([], .error e)
    | .ok d => (question upper d :: (ask U upper ss).1, (ask U upper ss).2)

/-- What was printed, the exit status, and the questions that have been answered. -/
structure St where
  out : Str
  status : Nat
  done : List Nat
  deriving DecidableEq, Repr

/-- find_server.py:47-48, 31-34: a reply to the question at a position. -/
def reply (dns : List Str) (s : St) (p : Nat × Reply) : St :=
  match dns[p.1]? with
  | none => s
  | some dn =>
    match p.2 with
    | .found sections => ⟨s.out ++ printAnswer dn sections, s.status, s.done ++ [p.1]⟩
    | .failed m => ⟨s.out ++ "ERROR: ".toList ++ m ++ ['\n'], 1, s.done ++ [p.1]⟩

/-- How the tool ends. -/
inductive End where
  | usage
  | raised (e : PyErr)
  /-- some question was not answered -/
  | waiting (out : Str)
  | exit (out : Str) (status : Nat)
  deriving DecidableEq, Repr

/-- find_server.py:37-52 `main` -/
def main (U : Unicode) (upper : Str → Str) (dns : List Str) (replies : List (Nat × Reply)) : End :=
  match (ask U upper dns).2 with
  | .error e => .raised e
  | .ok () =>
    let s := replies.foldl (reply dns) ⟨[], 0, []⟩
    if (List.range dns.length).all fun i => s.done.contains i then .exit s.out s.status else .waiting s.out

/-- find_server.py:55-60 `console_script` -/
def console (U : Unicode) (upper : Str → Str) (dns : List Str) (replies : List (Nat × Reply)) : End :=
  if dns = [] then .usage else main U upper dns replies

end Verif.FindServer
