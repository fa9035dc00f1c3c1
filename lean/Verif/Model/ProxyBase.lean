import Verif.Model.Merger
/-
Model of `ProxyBase` (/repo/ldaptor/protocols/ldap/proxybase.py:10-262): one client connection and its connection to the
proxied server.

The two hooks that a subclass overrides, `handleBeforeForwardRequest` and `handleProxiedResponse`, are parameters: each
may answer at once, raise, or return a Deferred that fires later.  When it fires is part of the history of events, as
are the requests, the responses, and the ups and downs of both connections.

Simplifications: the client towards the proxied server is modelled as far as the proxy uses it, as in `Model/Merger`.
Whether the response hook is called with the request and the controls is left out (its answer is a parameter).
`debug` is off.  What `connectionLost` writes to the proxied server (unbind) is left out.  `clientConnector` calls back once, with success or failure.
-/
namespace Verif.ProxyBase
open Verif.Ldap Verif.Server Verif.Client
open Verif.Merger (isFinal)

/-- What `handleBeforeForwardRequest` does: it calls `reply` any number of times, and then gives the request to forward
(or `None`) at once, raises, or returns a Deferred that has not fired. -/
inductive Before where
  | now (replies : List (Option Obj)) (request : Option (Obj × Controls))
  | raises
  | later

/-- What `handleProxiedResponse` does. -/
inductive After where
  | now (response : Option Obj)
  | raises
  | later

/-- The hooks.  The first argument is the number of the request or of the response. -/
structure Hooks where
  before : Nat → Obj → Controls → Before
  after : Nat → Obj → After

/-- The state of the Deferred of a response hook. -/
inductive HookState where
  | waiting
  | fired (response : Option Obj)
  | failed

/-- A request of the client: its message id, its list `dseq` of response hooks (by number), and whether the callback is
attached to the first of them; whether its `handleBeforeForwardRequest` has still to fire. -/
structure Request where
  id : PyVal
  dseq : List Nat
  linked : Bool
  asking : Bool

/-- A response hook that was called: for which request, with which response, and what has become of it. -/
structure Called where
  r : Nat
  op : Obj
  state : HookState

/-- A message written to the client: for which request, whether it is what a response hook gave, its message id. -/
structure Sent where
  r : Nat
  relayed : Bool
  id : PyVal
  op : Obj

/-- How far the connection to the proxied server is. -/
inductive Link where
  | connecting
  | startingTLS
  /-- the Deferred of `connectionMade` has fired -/
  | settled
  deriving DecidableEq, Repr

structure St where
  connected : Bool
  useTls : Bool
  /-- the factory has an attribute `options` -/
  options : Bool
  tlsInitiated : Bool
  unbound : Bool
  link : Link
  /-- `self.client is not None`, and whether that connection is there -/
  client : Bool
  upConnected : Bool
  queued : List (Nat × Obj × Controls)
  requests : List Request
  hooks : List Called
  onwire : List (Int × Nat)
  nextId : Int
  /-- the requests written to the proxied server, with their number and controls -/
  wrote : List (Int × Nat × Obj × Controls)
  sent : List Sent
  /-- `transport.loseConnection()` was called -/
  closing : Bool

inductive Event where
  /-- `clientConnector` gives a connection -/
  | up
  /-- TLS is on -/
  | tls
  /-- `clientConnector` or StartTLS fails -/
  | failed
  | upLost
  | request (id : PyVal) (op : Obj) (controls : Controls)
  /-- the Deferred of `handleBeforeForwardRequest` for the `r`-th request fires; `none` if it fails -/
  | asked (r : Nat) (replies : List (Option Obj)) (result : Option (Option (Obj × Controls)))
  /-- the proxied server sends a response -/
  | response (mid : Int) (op : Obj)
  /-- the Deferred of the `d`-th response hook fires; `none` if it fails -/
  | hook (d : Nat) (result : Option (Option Obj))
  | lost

/-- proxybase.py:19-29, 31-44 `connectionMade` -/
def start (useTls options : Bool) : St :=
  ⟨true, useTls, options, false, false, .connecting, false, false, [], [], [], [], 1, [], [], false⟩

/-- `reply(response)`, ldapserver.py:53-60, 84-86; `true` if it raises. -/
def reply (s : St) (r : Nat) (relayed : Bool) : Option Obj → St × Bool
  | none => (s, false)
  | some op =>
    match s.requests[r]? with
    | none => (s, true)
    | some q =>
      if s.connected && encodes q.id op then ({ s with sent := s.sent ++ [⟨r, relayed, q.id, op⟩] }, false) else (s, true)

/-- A hook calls `reply` a number of times; it stops when one of them raises. -/
def replyAll (s : St) (r : Nat) : List (Option Obj) → St × Bool
  | [] => (s, false)
  | x :: xs =>
    match reply s r false x with
    | (s, true) => (s, true)
    | (s, false) => replyAll s r xs

/-- proxybase.py:121-140 `forwardit`, with ldapclient.py:81-88, 128-133, 168-178: no controls are passed on.  All
exceptions end in a Deferred that nobody looks at. -/
def forwardit (s : St) (r : Nat) : Option (Obj × Controls) → St
  | none => s
  | some (op, _) =>
    if s.client && s.upConnected then
      match needsAnswer op with
      | none => s
      | some answer =>
        let s' : St := { s with nextId := s.nextId + 1, onwire := if answer then s.onwire ++ [(s.nextId, r)] else s.onwire }
        if encodes (.int s.nextId) op then { s' with wrote := s.wrote ++ [(s.nextId, r, op, none)] } else s'
    else s

/-- `requests[r] = q` -/
def setRequest (s : St) (r : Nat) (q : Request) : St := { s with requests := s.requests.set r q }

/-- proxybase.py:142-145: call the hook and forward what it gives. -/
def ask (H : Hooks) (s : St) (r : Nat) (op : Obj) (controls : Controls) : St :=
  match H.before r op controls with
  | .now replies request =>
    match replyAll s r replies with
    | (s, true) => s
    | (s, false) => forwardit s r request
  | .raises => s
  | .later =>
    match s.requests[r]? with
    | none => s
    | some q => setRequest s r { q with asking := true }

/-- proxybase.py:113-119 `_forwardRequestToProxiedServer` -/
def forward (H : Hooks) (s : St) (r : Nat) (op : Obj) (controls : Controls) : St :=
  if s.client then ask H s r op controls else { s with queued := s.queued ++ [(r, op, controls)] }

/-- proxybase.py:105-111 `_processBacklog` -/
def backlog (H : Hooks) (s : St) : St :=
  s.queued.foldl (fun s q => forward H s q.1 q.2.1 q.2.2) { s with queued := [] }

/-- proxybase.py:88-102: the answers to the queued requests; stops when `reply` raises. -/
def refuseAll (s : St) : List (Nat × Obj × Controls) → St × Bool
  | [] => ({ s with queued := [] }, false)
  | q :: qs =>
    match q.2.1 with
    | .bind .. =>
      match reply s q.1 false (some (respond .bindResponse 0x41 52 .none)) with
      | (s, true) => ({ s with queued := qs }, true)
      | (s, false) => refuseAll s qs
    | _ => refuseAll s qs

/-- proxybase.py:82-103 `_failedToConnectToProxiedServer`.  A decoded request is never a `LDAPStartTLSRequest`. -/
def failed (s : St) : St :=
  match refuseAll { s with link := .settled } s.queued with
  | (s, true) => s
  | (s, false) => { s with closing := true }

/-- proxybase.py:56-72 `_connectedToProxiedServer` -/
def up (H : Hooks) (s : St) : St :=
  if s.useTls then { s with link := .startingTLS }
  else if s.connected then backlog H { s with link := .settled, client := true, upConnected := true }
  else { s with link := .settled, queued := [] }

/-- proxybase.py:74-80 `_establishedTLS` -/
def tls (H : Hooks) (s : St) : St := backlog H { s with link := .settled, client := true, upConnected := true }

/-- proxybase.py:212-254 `handleStartTLSRequest`: the answer, and whether TLS is started. -/
def startTLS (s : St) (r : Nat) : St :=
  let answer (code : Int) : Option Obj := some (extRespond code .none .none)
  if s.options then
    if s.tlsInitiated then (reply s r false (answer 1)).1
    else match reply s r false (answer 0) with
      | (s, true) => s
      | (s, false) => { s with tlsInitiated := true }
  else (reply s r false (answer 52)).1

/-- ldapserver.py:106-127 `handle` with proxybase.py:187-210, 256-262.  The Deferred of `handleUnknown` gives `None`, so
nothing more is sent. -/
def receive (H : Hooks) (s : St) (id : PyVal) (op : Obj) (controls : Controls) : St :=
  let r := s.requests.length
  let s : St := { s with requests := s.requests ++ [⟨id, [], false, false⟩] }
  match op with
  | .extRequest _ name _ => if name = .bytes startTLSOid then startTLS s r else forward H s r op controls
  | .null .unbindRequest _ => forward H { s with unbound := true } r op controls
  | _ => forward H s r op controls

/-- proxybase.py:163-167 `replyAndLinkToNextEntry`, called for the first element of `dseq` once it has fired, and again
for the next one as long as that has fired as well.  If `reply` raises the next element gets no callback. -/
def drain (s : St) (r : Nat) (q : Request) : List Nat → St
  | [] => setRequest s r { q with dseq := [], linked := false }
  | d :: ds =>
    match s.hooks[d]? with
    | some ⟨_, _, .fired x⟩ =>
      match reply s r true x with
      | (s, true) => setRequest s r { q with dseq := ds, linked := false }
      | (s, false) => drain s r q ds
    | _ => setRequest s r { q with dseq := d :: ds, linked := true }

/-- The result of the response hook. -/
def After.state : After → HookState
  | .now x => .fired x
  | .raises => .failed
  | .later => .waiting

/-- ldapclient.py:182-211 `handle` with proxybase.py:157-178 `_gotResponseFromProxiedServer`: the request is forgotten
after a LDAPSearchResultDone or LDAPBindResponse.  The callback is attached if the list was empty. -/
def response (H : Hooks) (s : St) (mid : Int) (op : Obj) : St :=
  if s.upConnected && isResponse op then
    match s.onwire.lookup mid with
    | none => s
    | some r =>
      match s.requests[r]? with
      | none => s
      | some q =>
        let d := s.hooks.length
        let s : St := { s with hooks := s.hooks ++ [⟨r, op, (H.after d op).state⟩] }
        let s : St := if q.dseq = [] then drain s r q [d] else setRequest s r { q with dseq := q.dseq ++ [d] }
        if isFinal op then { s with onwire := s.onwire.filter fun e => e.1 ≠ mid } else s
  else s

/-- The state of a Deferred that fires. -/
def fires : Option (Option Obj) → HookState
  | some x => .fired x
  | none => .failed

/-- A response hook fires: if it is the first of its list and has the callback, that is called. -/
def hook (s : St) (d : Nat) (result : Option (Option Obj)) : St :=
  match s.hooks[d]? with
  | some ⟨r, op, .waiting⟩ =>
    let s : St := { s with hooks := s.hooks.set d ⟨r, op, fires result⟩ }
    match s.requests[r]? with
    | none => s
    | some q => if q.linked && q.dseq.head? = some d then drain s r q q.dseq else s
  | _ => s

/-- The Deferred of `handleBeforeForwardRequest` fires. -/
def asked (s : St) (r : Nat) (replies : List (Option Obj)) (result : Option (Option (Obj × Controls))) : St :=
  match s.requests[r]? with
  | none => s
  | some q =>
    if q.asking then
      match replyAll (setRequest s r { q with asking := false }) r replies, result with
      | (s, true), _ => s
      | (s, false), none => s
      | (s, false), some x => forwardit s r x
    else s

/-- One event. -/
def step (H : Hooks) (s : St) : Event → St
  | .up => if s.link = .connecting then up H s else s
  | .tls => if s.link = .startingTLS then tls H s else s
  | .failed => if s.link = .settled then s else failed s
  | .upLost => if s.upConnected then { s with upConnected := false, onwire := [] } else s -- ldapclient.py:72-79
  | .request id op controls => if s.connected && isRequest op && id ≠ .int 0 then receive H s id op controls else s
  | .asked r replies result => asked s r replies result
  | .response mid op => response H s mid op
  | .hook d result => hook s d result
  | .lost => { s with connected := false, client := false, unbound := s.unbound || (s.client && s.upConnected) } -- proxybase.py:46-54

def run (H : Hooks) (s : St) (es : List Event) : St := es.foldl (step H) s

end Verif.ProxyBase
