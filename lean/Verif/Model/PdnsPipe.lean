import Verif.Model.FilterText
import Verif.Model.PyStr
/-
Model of /repo/ldaptor/_scripts/ldap2pdns.py `PdnsPipeProtocol`: answer the questions of a PowerDNS name server from a
directory.

Lines are text, without their ends.  Simplifications: Twisted's `LineReceiver`, which finds the lines, is left out, as is
`sys.stdout.flush()`.  (In Python 3 `LineReceiver` receives octets, and `delimiter` on line 25 is text: splitting raises TypeError
before any line is found.  The model begins where a line has been found.)  Sending a line does not fail.  What a Deferred waits
for is kept in the cell that holds it.  The factory of line 65 answers later than the line that called it, or raises.  No
line arrives after the end of the input.  `repr` of text, the text of tracebacks and `sys.argv[0]` are parameters.
-/
namespace Verif.PdnsPipe
open Verif.FilterText

/-- Parameters: `dnsDomain`, `sys.argv[0]`, `repr` of text, the lines of the traceback of an exception (`other`: TooMuchQueued). -/
structure Config where
  domain : Str
  program : Str
  repr : Str → Str
  trace : PyErr → List Str

/-- Which attribute a question looks for: lines 114-130 and 158-176. -/
inductive Kind where
  | a
  | ptr
  deriving DecidableEq, Repr

/-- A question that needs the directory: the text of its filter, and what its answer repeats. -/
structure Question where
  kind : Kind
  name : Str
  cls : Str
  filter : Str
  deriving DecidableEq, Repr

/-- `s.split(c, 1)`, if there is a `c`. -/
def split1 (c : Char) : Str → Option (Str × Str)
  | [] => none
  | x :: s => if x = c then some ([], s) else (split1 c s).map fun p => (x :: p.1, p.2)

/-- `s.split(c)` -/
def splitAll (c : Char) : Str → List Str
  | [] => [[]]
  | x :: s =>
    match splitAll c s with
    | [] => []
    | p :: ps => if x = c then [] :: p :: ps else (x :: p) :: ps

/-- What a command gives: lines at once, or a question for the directory. -/
inductive Reply where
  | now (lines : List Str)
  | ask (q : Question)
  deriving DecidableEq, Repr

/-- `s[:-len(t)]`, if `s.endswith(t)`, for a `t` that is not empty. -/
def before (t s : Str) : Option Str := if t.isSuffixOf s then some (s.take (s.length - t.length)) else none

/-- ldap2pdns.py:114-130 `question_A`, up to `getLdapEntry`; line 122 is the text of the filter. -/
def questionA (cfg : Config) (qname qclass : Str) : Reply :=
  match before ('.' :: cfg.domain) qname with
  | none => .now ["END".toList]
  | some cn => .ask ⟨.a, qname, qclass, "(&(cn=".toList ++ cn ++ ")(ipHostNumber=*))".toList⟩

/-- ldap2pdns.py:158-176 `question_PTR`, up to `getLdapEntry`; line 171 is the text of the filter. -/
def questionPTR (qname qclass : Str) : Reply :=
  match before ".in-addr.arpa".toList qname with
  | none => .now ["END".toList]
  | some s =>
    let octets := splitAll '.' s
    if octets.length ≠ 4 then .now ["END".toList]
    else .ask ⟨.ptr, qname, qclass, "(ipHostNumber=".toList ++ joinWith ['.'] octets.reverse ++ [')']⟩

/-- ldap2pdns.py:132-136 `question_ANY` -/
def questionANY (cfg : Config) (qname qclass : Str) : Reply :=
  if ".in-addr.arpa".toList.isSuffixOf qname then questionPTR qname qclass else questionA cfg qname qclass

/-- ldap2pdns.py:180: `rest.split("\t", 4)` has five parts. -/
def fields (rest : Str) : Option (Str × Str × Str × Str × Str) := do
  let (qname, r) ← split1 '\t' rest
  let (qclass, r) ← split1 '\t' r
  let (qtype, r) ← split1 '\t' r
  let (ident, ip) ← split1 '\t' r
  return (qname, qclass, qtype, ident, ip)

/-- ldap2pdns.py:178-189 `do_main_Q`: the class has `question_A`, `question_ANY` and `question_PTR`. -/
def mainQ (cfg : Config) (rest : Str) : Reply :=
  match fields rest with
  | none => .now ["LOG\tInvalid question: ".toList ++ cfg.repr rest, "END".toList]
  | some (qname, qclass, qtype, _, _) =>
    if qclass ≠ "IN".toList then .now ["LOG\tInvalid qclass: ".toList ++ cfg.repr qclass, "END".toList]
    else if qtype = "A".toList then questionA cfg qname qclass
    else if qtype = "ANY".toList then questionANY cfg qname qclass
    else if qtype = "PTR".toList then questionPTR qname qclass
    else .now ["END".toList]

/-- ldap2pdns.py:200-216: the first part of `lineReceived`, in the state `main` or `start`; lines 99-104 `do_start_HELO`,
191-192 `do_main_AXFR`, 194-196 `do_main_PING`. -/
def hear (cfg : Config) (main : Bool) (line : Str) : Bool × Reply :=
  let (type, rest) := (split1 '\t' line).getD (line, [])
  let unknown := Reply.now ["LOG\tUnknown command ".toList ++ cfg.repr type ++ " in state ".toList ++
    (if main then "main".toList else "start".toList), "END".toList]
  if main then
    if type = "Q".toList then (true, mainQ cfg rest)
    else if type = "AXFR".toList then (true, .now ["LOG\tRefusing AXFR".toList, "END".toList])
    else if type = "PING".toList then (true, .now ["END".toList])
    else (true, unknown)
  else
    if type = "HELO".toList then
      if rest = ['1'] then (true, .now ["OK\t".toList ++ cfg.program]) else (false, .now ["FAIL".toList])
    else (false, unknown)

/-- ldap2pdns.py:93-97 `failed`: the answer, from the lines of the traceback. -/
def failLines (trace : List Str) : List Str := trace.map (fun l => "LOG\t".toList ++ l) ++ ["FAIL".toList]

/-- ldap2pdns.py:106-112 `_gotA` and 138-156 `_gotPTR`: one line.  A value that is octets raises TypeError. -/
def dataLine (cfg : Config) (q : Question) : PyStr → Py Str
  | .bytes _ => .error .typeError
  | .text v => .ok (joinWith ['\t'] ["DATA".toList, q.name, q.cls,
      (match q.kind with | .a => "A".toList | .ptr => "PTR".toList), "3600".toList, "-1".toList,
      (match q.kind with | .a => v | .ptr => v ++ ['.'] ++ cfg.domain ++ ['.'])])

/-- The lines for all values. -/
def dataLines (cfg : Config) (q : Question) : List PyStr → Py (List Str)
  | [] => .ok ["END".toList]
  | v :: vs => do
    let l ← dataLine cfg q v
    let r ← dataLines cfg q vs
    return l :: r

/-- How a search ended: with the values of the attribute in each entry found, or with the lines of a traceback. -/
abbrev Found := Except (List Str) (List (List PyStr))

/-- `_gotA` or `_gotPTR`, then `completed` or `failed` -/
def finish (cfg : Config) (q : Question) : Found → List Str
  | .error t => failLines t
  | .ok entries =>
    match dataLines cfg q entries.flatten with
    | .ok lines => lines
    | .error e => failLines (cfg.trace e)

/-- What a Deferred waits for: the entry to search at, or the search. -/
inductive Stage where
  | waiting (q : Question)
  | searching (q : Question)
  deriving DecidableEq, Repr

/-- An element of `work`: a list with a Deferred, known by a number; a list of lines; `[ExitSentinel]`. -/
inductive Item where
  | pending (id : Nat) (stage : Stage)
  | done (lines : List Str)
  | exit
  deriving DecidableEq, Repr

/-- The attributes of the object: `state` (is `main`), `ldapEntry` (is not None), `ldapEntryFetchInProgress`,
`waitingForLdapEntry` (`none`: a Deferred that nobody has got), `work`; then the number of the next line, what was sent, whether
the reactor was stopped, whether the input has ended. -/
structure St where
  main : Bool
  entry : Bool
  fetching : Bool
  waiting : List (Option Nat)
  work : List Item
  next : Nat
  out : List Str
  stopped : Bool
  ended : Bool
  deriving DecidableEq, Repr

/-- ldap2pdns.py:26-37: at first. -/
def start : St := ⟨false, false, false, [], [], 0, [], false, false⟩

/-- ldap2pdns.py:72-87 `_doWork`: the lines sent, what stays, whether the reactor is stopped.  Nothing follows `[ExitSentinel]`
(line 82); no list is empty (`Verif.C103.framed`), so that line 74 does not raise. -/
def workOff : List Item → List Str × List Item × Bool
  | [] => ([], [], false)
  | .pending i s :: w => ([], .pending i s :: w, false)
  | .exit :: w => ((workOff w).1, (workOff w).2.1, true)
  | .done lines :: w => (lines ++ (workOff w).1, (workOff w).2)

/-- `_doWork` -/
def doWork (s : St) : St :=
  let r := workOff s.work
  { s with out := s.out ++ r.1, work := r.2.1, stopped := s.stopped || r.2.2 }

/-- The contents of one cell of `work` change: `who[:] = …`. -/
def put (id : Nat) (x : Item) : List Item → List Item
  | [] => []
  | .pending i s :: w => if i = id then x :: w else .pending i s :: put id x w
  | y :: w => y :: put id x w

/-- ldap2pdns.py:89-97 `completed` and `failed`, when the answer is known. -/
def complete (id : Nat) (lines : List Str) (s : St) : St := doWork { s with work := put id (.done lines) s.work }

/-- ldap2pdns.py:120-125 and 170-172 `_cb`: search, unless the text of the filter is refused. -/
def search (cfg : Config) (id : Nat) (q : Question) (s : St) : St :=
  match parseFilter q.filter with
  | .error e => complete id (failLines (cfg.trace e)) s
  | .ok _ => { s with work := put id (.pending id (.searching q)) s.work }

/-- What the Deferred with this number waits for. -/
def stage (id : Nat) : List Item → Option Stage
  | [] => none
  | .pending i s :: w => if i = id then some s else stage id w
  | _ :: w => stage id w

/-- `d.callback(e)` for a Deferred of `waitingForLdapEntry` -/
def call (cfg : Config) (s : St) (d : Option Nat) : St :=
  match d with
  | none => s
  | some id =>
    match stage id s.work with
    | some (.waiting q) => search cfg id q s
    | _ => s

/-- `w.errback(reason)` for a Deferred of `waitingForLdapEntry` -/
def errback (trace : List Str) (s : St) (d : Option Nat) : St :=
  match d with
  | none => s
  | some id =>
    match stage id s.work with
    | some (.waiting _) => complete id (failLines trace) s
    | _ => s

/-- What happens. -/
inductive Event where
  /-- a line arrives; if the factory is called, it raises with this traceback -/
  | line (text : Str) (raises : Option (List Str))
  /-- the fetch ends, perhaps with a failure -/
  | fetched (fails : Option (List Str))
  /-- the search of the question on this line ends -/
  | found (id : Nat) (r : Found)
  /-- the connection to the directory is lost -/
  | lost
  /-- the input ends -/
  | eof
  deriving DecidableEq

/-- The Deferred of a line is appended to `work`: lines 220-221. -/
def append (x : Item) (s : St) : St := { s with work := s.work ++ [x], next := s.next + 1 }

/-- ldap2pdns.py:54-70 `getLdapEntry`, and lines 216-223. -/
def ask (cfg : Config) (q : Question) (raises : Option (List Str)) (s : St) : St :=
  if s.entry then search cfg s.next q (append (.pending s.next (.waiting q)) s)
  else if s.waiting.length > 10 then doWork (append (.done (failLines (cfg.trace .other))) s)
  else if s.fetching then append (.pending s.next (.waiting q)) { s with waiting := s.waiting ++ [some s.next] }
  else
    match raises with
    | none => append (.pending s.next (.waiting q)) { s with waiting := s.waiting ++ [some s.next], fetching := true }
    | some t => doWork (append (.done (failLines t)) { s with waiting := s.waiting ++ [none], fetching := true })

/-- One event: `lineReceived` (198-223), `_cbLdapEntry` (39-45), `_ebLdapEntry` (47-52), `connectionLost` (225-227),
`lostLDAPClient` (229-232; it raises AssertionError if there is no entry). -/
def step (cfg : Config) (s : St) : Event → St
  | .line text raises =>
    if s.ended then s
    else
      let h := hear cfg s.main text
      let s := { s with main := h.1 }
      match h.2 with
      | .now lines => doWork (append (.done lines) s)
      | .ask q => ask cfg q raises s
  | .fetched fails =>
    if s.fetching && !s.waiting.contains none then
      match fails with
      | none => s.waiting.foldl (call cfg) { s with fetching := false, entry := true, waiting := [] }
      | some t => s.waiting.foldl (errback t) { s with fetching := false, waiting := [] }
    else s
  | .found id r =>
    match stage id s.work with
    | some (.searching q) => complete id (finish cfg q r) s
    | _ => s
  | .lost => { s with entry := false }
  | .eof => if s.ended then s else doWork { s with ended := true, work := s.work ++ [.exit] }

/-- All events, in order. -/
def run (cfg : Config) (events : List Event) : St := events.foldl (step cfg) start

end Verif.PdnsPipe
