import Verif.Model.Conn
/-
Model of /repo/ldaptor/protocols/ldap/ldapclient.py and of the message ids of /repo/ldaptor/protocols/pureldap.py:25-32.

One process with any number of connections.  The application is a parameter: a function from everything that has
happened so far to what it does next, called whenever a Deferred fires or a handler is called.  What it does is a list
of calls into the clients; it may make them on any connection, and may cancel Deferreds.

Deferreds (Twisted) are modelled as far as the client uses them: `callback` and `errback` deliver a result once, raise
AlreadyCalledError the second time, and are ignored once after `cancel`.  Exceptions of callbacks stay inside the
Deferred.  Every message id, Deferred, write and result is recorded in a log, in the order in which it happens.

Simplifications: the transport calls `dataReceived`, `connectionLost` and delayed calls only from the reactor, never
from inside a callback; `reactor.callLater(0, ...)` is a queue; `transport.write`, `loseConnection` and `startTLS` do not
raise; `debug` output is left out.
-/
namespace Verif.Client
open Verif.Ldap

/-- The controls of a message. -/
abbrev Controls := Option (List (PyVal × PyVal × PyVal))

/-- `isinstance(x, pureldap.LDAPProtocolResponse)`, pureldap.py:244, 273, 1013. -/
def isResponse : Obj → Bool
  | .result .. | .extResponse .. | .searchEntry .. | .searchReference .. => true
  | _ => false

/-- `op.needs_answer`, pureldap.py:138-139, 436-438, 1453-1455; other objects have no such attribute. -/
def needsAnswer : Obj → Option Bool
  | .null .unbindRequest _ | .int .abandonRequest _ _ => some false
  | .oct .delRequest _ _ | .bind .. | .searchRequest .. | .modifyRequest .. | .addRequest .. | .modifyDN .. | .compare ..
  | .extRequest .. => some true
  | _ => none

/-- What the client itself does with a result before the application sees it: nothing, `_handle_bind_msg`
(ldapclient.py:226-231) or `_cbStartTLS` (240-254). -/
inductive Chain where
  | plain
  | bind
  | startTLS
  deriving DecidableEq, Repr

/-- The value of `self.onwire[id]`: the Deferred, `return_controls`, whether there is a handler (ldapclient.py:101, 131, 164). -/
structure Pending where
  d : Nat
  returnControls : Bool
  handler : Bool
  chain : Chain
  deriving DecidableEq, Repr

/-- One client. -/
structure Conn where
  connected : Bool
  onwire : List (Int × Pending)
  deriving DecidableEq, Repr

/-- The state of a Deferred that the client handed out. -/
inductive DState where
  | waiting
  /-- cancelled: `CancelledError` was delivered, the next result is ignored -/
  | cancelled
  | done
  deriving DecidableEq, Repr

/-- What a Deferred is fired with. -/
inductive Outcome where
  | response (op : Obj)
  | responseControls (op : Obj) (controls : Controls)
  /-- `_handle_bind_msg`: `(matchedDN, serverSaslCreds)` -/
  | bound (matchedDN creds : PyVal)
  /-- `_cbStartTLS` returned the client -/
  | tls
  /-- an exception raised by `_handle_bind_msg` or `_cbStartTLS` -/
  | failed (op : Obj)
  /-- the reason given to `connectionLost` -/
  | lost
  /-- LDAPClientConnectionLostException in `_startTLS` -/
  | notConnected
  /-- LDAPStartTLSBusyError -/
  | busy
  | cancelled

/-- Why a call raised. -/
inductive Refusal where
  /-- LDAPClientConnectionLostException -/
  | notConnected
  | assertion
  /-- `toWire` raised -/
  | encoding
  deriving DecidableEq, Repr

/-- What happens. -/
inductive Note where
  /-- an `LDAPMessage` got this id -/
  | made (c : Nat) (id : Int)
  /-- a request was put into `onwire` -/
  | sent (c : Nat) (id : Int) (p : Pending) (op : Obj)
  | written (c : Nat) (b : Bytes)
  | refused (c : Nat) (r : Refusal)
  /-- a Deferred delivered its result -/
  | fired (d : Nat) (o : Outcome)
  /-- a result for a cancelled Deferred was ignored -/
  | dropped (d : Nat)
  /-- the handler of a request was called -/
  | handled (d : Nat) (op : Obj) (controls : Option Controls)
  /-- the handler said that this was the last response -/
  | finished (d : Nat)
  | unsolicited (c : Nat) (op : Obj)
  | closing (c : Nat)
  | startedTLS (c : Nat)

/-- Calls of the application. -/
inductive Call where
  | send (c : Nat) (op : Obj) (controls : Controls)
  | sendMulti (c : Nat) (op : Obj) (handler : Bool)
  | sendMultiEx (c : Nat) (op : Obj) (controls : Controls) (handler : Bool)
  | sendNoResponse (c : Nat) (op : Obj) (controls : Controls)
  | bind (c : Nat) (dn : PyVal) (auth : PyVal)
  | unbind (c : Nat)
  | startTLS (c : Nat)
  | cancel (d : Nat)

/-- What the application does when it is told something: calls, and for a handler what it returns and whether it
raises after the calls. -/
structure Reaction where
  calls : List Call
  final : Bool
  raises : Bool

/-- The application. -/
abbrev App := List Note → Reaction

/-- The process: `next_ldap_message_id`, the clients, the Deferreds made so far, the delayed calls of `_startTLS`, and
the log. -/
structure World where
  nextId : Int
  conns : Nat → Conn
  deferreds : List DState
  delayed : List (Nat × Nat)
  log : List Note

/-- The process at its start (pureldap.py:25, ldapclient.py:39-42). -/
def World.initial : World := ⟨1, fun _ => ⟨false, []⟩, [], [], []⟩

def World.note (w : World) (n : Note) : World := { w with log := w.log ++ [n] }

def World.setConn (w : World) (c : Nat) (x : Conn) : World :=
  { w with conns := fun j => if j = c then x else w.conns j }

def World.setD (w : World) (d : Nat) (s : DState) : World := { w with deferreds := w.deferreds.set d s }

/-- ldapclient.py:81-88 `_send` before the assertion about the id, and pureldap.py:28-32: `none` if not connected. -/
def prepare (w : World) (c : Nat) : Option (Int × World) :=
  if (w.conns c).connected then some (w.nextId, ({ w with nextId := w.nextId + 1 }).note (.made c w.nextId)) else none

/-- `self.onwire[msg.id] = ...` for an id that is not yet there. -/
def register (w : World) (c : Nat) (id : Int) (p : Pending) : World :=
  w.setConn c { w.conns c with onwire := (w.conns c).onwire ++ [(id, p)] }

/-- `self.transport.write(msg.toWire())` -/
def write (w : World) (c : Nat) (id : Int) (op : Obj) (controls : Controls) : World :=
  match toWire (.message (.int id) op controls) with
  | .ok b => w.note (.written c b)
  | .error _ => w.note (.refused c .encoding)

/-- ldapclient.py:90-103, 128-133, 161-166: `send` and its two relatives, with the Deferred they make.  A request whose
`toWire` raises stays in `onwire`. -/
def sendOn (w : World) (c : Nat) (op : Obj) (controls : Controls) (p : Pending) : World :=
  match prepare w c with
  | none => w.note (.refused c .notConnected)
  | some (id, w) =>
    if ((w.conns c).onwire.lookup id).isSome then w.note (.refused c .assertion)
    else if needsAnswer op = some true then write ((register w c id p).note (.sent c id p op)) c id op controls
    else w.note (.refused c .assertion)

/-- The same, making a new Deferred (also where the code gives up before it makes one; then nobody gets to see it). -/
def sendNew (w : World) (c : Nat) (op : Obj) (controls : Controls) (returnControls handler : Bool) (chain : Chain) : World :=
  sendOn { w with deferreds := w.deferreds ++ [.waiting] } c op controls ⟨w.deferreds.length, returnControls, handler, chain⟩

/-- ldapclient.py:168-178 `send_noResponse` -/
def sendNoResponse (w : World) (c : Nat) (op : Obj) (controls : Controls) : World :=
  match prepare w c with
  | none => w.note (.refused c .notConnected)
  | some (id, w) =>
    if ((w.conns c).onwire.lookup id).isSome then w.note (.refused c .assertion)
    else if needsAnswer op = some false then write w c id op controls
    else w.note (.refused c .assertion)

/-- pureldap.py:1706-1728: the StartTLS request, its name and the tag of an extended request. -/
def startTLSOid : Bytes := "1.3.6.1.4.1.1466.20037".toList.map fun c => UInt8.ofNat c.toNat
def startTLSRequest : Obj := .extRequest 0x57 (.bytes startTLSOid) .none

/-- One call of the application; the first argument bounds the nesting of cancellations inside callbacks (Python bounds
it too). -/
def call (app : App) : Nat → World → Call → World
  | _, w, .send c op controls => sendNew w c op controls false false .plain
  | _, w, .sendMulti c op handler => sendNew w c op none false handler .plain
  | _, w, .sendMultiEx c op controls handler => sendNew w c op controls true handler .plain
  | _, w, .sendNoResponse c op controls => sendNoResponse w c op controls
  | _, w, .bind c dn auth => sendNew w c (.bind 0x40 (.int 3) dn (.simple auth)) none false false .bind -- ldapclient.py:213-224
  | _, w, .unbind c => -- ldapclient.py:233-238
    if (w.conns c).connected then (sendNoResponse w c (.null .unbindRequest 0x42) none).note (.closing c)
    else w.note (.refused c .notConnected)
  | _, w, .startTLS c => -- ldapclient.py:256-276
    { w with deferreds := w.deferreds ++ [.waiting], delayed := w.delayed ++ [(c, w.deferreds.length)] }
  | 0, w, .cancel _ => w
  | fuel + 1, w, .cancel d =>
    if w.deferreds[d]? = some .waiting then
      let w := (w.setD d .cancelled).note (.fired d .cancelled)
      (app w.log).calls.foldl (call app fuel) w
    else w

/-- The calls the application makes on being told what has just been logged. -/
def react (app : App) (fuel : Nat) (w : World) : World := (app w.log).calls.foldl (call app fuel) w

/-- `d.callback(...)` or `d.errback(...)`; `true` if it raises AlreadyCalledError. -/
def fire (app : App) (fuel : Nat) (w : World) (d : Nat) (o : Outcome) : World × Bool :=
  match w.deferreds[d]? with
  | some .waiting => (react app fuel ((w.setD d .done).note (.fired d o)), false)
  | some .cancelled => ((w.setD d .done).note (.dropped d), false)
  | _ => (w, true)

/-- `del self.onwire[id]` -/
def forget (w : World) (c : Nat) (id : Int) : World :=
  w.setConn c { w.conns c with onwire := (w.conns c).onwire.filter fun e => e.1 ≠ id }

/-- ldapclient.py:240-254 `_cbStartTLS`: whether TLS is switched on.  The result code of an error that is no
LDAPExtendedResponse is not looked at; referrals are never set by the decoder. -/
def agreesToTLS : Obj → Bool
  | .extResponse _ code _ _ name _ => code = .int 0 && (name = .none || name = .bytes startTLSOid)
  | _ => false

/-- ldapclient.py:226-231 `_handle_bind_msg` -/
def bindOutcome : Obj → Outcome
  | .result .bindResponse tag code mdn msg creds =>
    if code = .int 0 then .bound mdn creds else .failed (.result .bindResponse tag code mdn msg creds)
  | op => .failed op

/-- ldapclient.py:194-199: what a response without a handler does to the Deferred.  `transport.startTLS` runs inside the
Deferred, before the application is told, and not at all if the Deferred was cancelled. -/
def deliver (app : App) (fuel : Nat) (w : World) (c : Nat) (p : Pending) (op : Obj) (controls : Controls) : World × Bool :=
  match p.chain with
  | .plain => fire app fuel w p.d (if p.returnControls then .responseControls op controls else .response op)
  | .bind => fire app fuel w p.d (bindOutcome op)
  | .startTLS =>
    if agreesToTLS op then
      if w.deferreds[p.d]? = some .waiting then fire app fuel (w.note (.startedTLS c)) p.d .tls
      else fire app fuel w p.d .tls
    else fire app fuel w p.d (.failed op)

/-- ldapclient.py:182-211 `handle`; `true` if it raises. -/
def handle (app : App) (fuel : Nat) (w : World) (c : Nat) (msg : Obj) : World × Bool :=
  match msg with
  | .message id op controls =>
    if !isResponse op then (w, true)
    else match id with
      | .int id =>
        if id = 0 then (w.note (.unsolicited c op), false)
        else match (w.conns c).onwire.lookup id with
          | none => (w, true)
          | some p =>
            if !p.handler then
              match deliver app fuel w c p op controls with
              | (w, true) => (w, true)
              | (w, false) => (forget w c id, false)
            else
              let w := w.note (.handled p.d op (if p.returnControls then some controls else none))
              let r := app w.log
              let w := r.calls.foldl (call app fuel) w
              if r.raises then (w, true)
              else if r.final then ((forget w c id).note (.finished p.d), false)
              else (w, false)
      | _ => (w, true)
  | _ => (w, true)

/-- ldapclient.py:75-79: the loop of `connectionLost`; `popitem` takes the item that was put in last.  The second argument
bounds the number of rounds. -/
def drain (app : App) (fuel : Nat) : Nat → World → Nat → World
  | 0, w, _ => w
  | n + 1, w, c =>
    match (w.conns c).onwire.getLast? with
    | none => w
    | some (_, p) =>
      let w := w.setConn c { w.conns c with onwire := (w.conns c).onwire.dropLast }
      match fire app fuel w p.d .lost with
      | (w, true) => w
      | (w, false) => drain app fuel n w c

/-- ldapclient.py:71-79 `connectionLost`: the dictionary does not grow while not connected, so its size bounds the loop. -/
def connectionLost (app : App) (fuel : Nat) (w : World) (c : Nat) : World :=
  drain app fuel (w.conns c).onwire.length (w.setConn c { w.conns c with connected := false }) c

/-- ldapclient.py:278-287 `_startTLS`, run by the reactor for the Deferred `d`. -/
def runStartTLS (app : App) (fuel : Nat) (w : World) (c d : Nat) : World :=
  if w.deferreds[d]? ≠ some .waiting then (fire app fuel w d .tls).1 -- cancelled: `_startTLS` is not called
  else if !(w.conns c).connected then (fire app fuel w d .notConnected).1
  else if (w.conns c).onwire ≠ [] then (fire app fuel w d .busy).1
  else sendOn w c startTLSRequest none ⟨d, false, false, .startTLS⟩

/-- What the reactor does. -/
inductive Event where
  | made (c : Nat)
  | received (c : Nat) (msg : Obj)
  | lost (c : Nat)
  /-- the oldest delayed call runs -/
  | tick
  /-- the application acts on its own -/
  | app (call : Call)

/-- One event. -/
def step (app : App) (fuel : Nat) (w : World) : Event → World
  | .made c => w.setConn c { w.conns c with connected := true } -- ldapclient.py:67-69
  | .received c msg => (handle app fuel w c msg).1
  | .lost c => connectionLost app fuel w c
  | .tick =>
    match w.delayed with
    | [] => w
    | (c, d) :: rest => runStartTLS app fuel { w with delayed := rest } c d
  | .app x => call app fuel w x

/-- A history. -/
def run (app : App) (fuel : Nat) (es : List Event) : World := es.foldl (step app fuel) World.initial

end Verif.Client
