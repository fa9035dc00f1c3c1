import Verif.Model.PyStr
/-
Model of /repo/ldaptor/generate_password.py, and of what /repo/ldaptor/_scripts/passwd.py does with its passwords.

Simplifications: starting the process is left out; the model takes the events that Twisted reports: output, in pieces, and
the end.  The reason of a failure is left out.  In passwd.py, whether the directory accepts a password is a parameter, and the
connection is left out.
-/
namespace Verif.Pwgen

/-- What the deferred is fired with. -/
inductive Result where
  | passwords (lines : List Str)
  /-- PwgenException, with its second argument -/
  | failure (text : Str)
  deriving DecidableEq, Repr

/-- An exception that leaves a method. -/
inductive Raised where
  | typeError
  | alreadyCalled
  deriving DecidableEq, Repr

/-- generate_password.py:9-14: a `ReadPassword`, with all the deferred was fired with, and what its methods raised. -/
structure St where
  stdout : Str
  stderr : Str
  fired : Option Result
  raised : List Raised
  deriving DecidableEq, Repr

/-- generate_password.py:10-14 `__init__` -/
def start : St := ⟨[], [], none, []⟩

/-- generate_password.py:16-17 `outReceived`: text and octets cannot be put together. -/
def outReceived (s : St) : PyStr → St
  | .text t => { s with stdout := s.stdout ++ t }
  | .bytes _ => { s with raised := s.raised ++ [.typeError] }

/-- generate_password.py:19-20 `errReceived` -/
def errReceived (s : St) : PyStr → St
  | .text t => { s with stderr := s.stderr ++ t }
  | .bytes _ => { s with raised := s.raised ++ [.typeError] }

/-- `Deferred.callback`, `Deferred.errback`: the second call raises AlreadyCalledError. -/
def fire (s : St) (r : Result) : St :=
  match s.fired with
  | none => { s with fired := some r }
  | some _ => { s with raised := s.raised ++ [.alreadyCalled] }

/-- `s.split("\n")` -/
def splitLines : Str → List Str
  | [] => [[]]
  | c :: s =>
    if c = '\n' then [] :: splitLines s
    else match splitLines s with
      | [] => [[c]]
      | l :: ls => (c :: l) :: ls

/-- generate_password.py:22-34 `processEnded`; after the errback of line 28 the callback of line 33 is called as well. -/
def processEnded (count : Nat) (s : St) : St :=
  if s.stderr ≠ [] then fire s (.failure s.stderr)
  else if s.stdout ≠ [] then
    let lines := (splitLines s.stdout).filter fun l => l ≠ []
    let s := if lines.length ≠ count then fire s (.failure "Wrong number of lines received.".toList) else s
    fire s (.passwords lines)
  else fire s (.failure [])

/-- What Twisted reports while the process runs. -/
inductive Event where
  | out (d : PyStr)
  | err (d : PyStr)
  deriving DecidableEq, Repr

/-- One event. -/
def step (s : St) : Event → St
  | .out d => outReceived s d
  | .err d => errReceived s d

/-- A whole run of the process. -/
def run (count : Nat) (es : List Event) : St := processEnded count (es.foldl step start)

/-- What becomes of one DN. -/
inductive Outcome where
  | changed (password : Str)
  | refused
  | pwgenFailed
  /-- AssertionError in `_got_password` -/
  | assertion
  /-- nothing happens, and the tool does not end -/
  | waiting
  deriving DecidableEq, Repr

/-- passwd.py:29-34 `getPassword`: what the deferred is fired with; `typed` is what `getpass` returns. -/
def getPassword (generate : Bool) (typed : Str) (es : List Event) : Option Result :=
  if generate then (run 1 es).fired else some (.passwords [typed])

/-- passwd.py:39-44, 61-76: one DN of the list. -/
def change (accepts : Str → Str → Bool) (dn : Str) (r : Option Result) : Outcome :=
  match r with
  | none => .waiting
  | some (.failure _) => .pwgenFailed
  | some (.passwords [p]) => if accepts dn p then .changed p else .refused
  | some (.passwords _) => .assertion

/-- passwd.py:36-50: all DNs, each with what is typed and what its process prints. -/
def changeAll (generate : Bool) (accepts : Str → Str → Bool) (dns : List (Str × Str × List Event)) : List Outcome :=
  dns.map fun d => change accepts d.1 (getPassword generate d.2.1 d.2.2)

/-- passwd.py:23-27, 66-70, 141: the exit status, which only `_report_ldap_error` sets. -/
def exitStatus (os : List Outcome) : Nat := if os.any (· == .refused) then 1 else 0

/-- passwd.py:57-59: the passwords that are shown. -/
def shown (generate : Bool) (dns : List (Str × Str × List Event)) (os : List Outcome) : List (Str × Str) :=
  if generate then (dns.zip os).filterMap fun p => match p.2 with
    | .changed w => some (p.1.1, w)
    | _ => none
  else []

end Verif.Pwgen
