import Verif.Lemmas.Decode
/-
Model of the receiving side of a connection: `dataReceived` of
/repo/ldaptor/protocols/ldap/ldapserver.py:30-41 and /repo/ldaptor/protocols/ldap/ldapclient.py:54-65.

The message handler (`self.handle`) is a parameter: any function from the current state of the program and a message to
a new state, together with a flag telling whether it raised.  An exception that leaves `dataReceived` makes Twisted
drop the connection; after that no more data is delivered (`dead`).
The server tests `o is None`, the client `not o`; an LDAP object is never falsy because its `len` is the length of its
encoding (pureber.py:123-124), so both tests agree; an exception raised by `len` counts as one of the handler.
-/
namespace Verif.Conn
open Verif.Ldap

/-- A connection: `self.buffer`, the state of the rest of the program, and whether the connection has been dropped. -/
structure Conn (σ : Type) where
  buffer : Bytes
  st : σ
  dead : Bool

/-- What `self.handle(o)` does to the state, and whether it raises. -/
abbrev Handler (σ : Type) := σ → Obj → σ × Bool

/-- The `while 1` loop of `dataReceived` (ldapserver.py:32-41, ldapclient.py:56-65).  Termination: every iteration
consumes at least two bytes. -/
def pump {σ : Type} (handle : Handler σ) (c : Conn σ) : Conn σ :=
  match _h : berDecodeObject topCtx c.buffer with
  | .error .insufficientData => c
  | .error _ => { c with dead := true }
  | .ok (none, n) => { c with buffer := c.buffer.drop n }
  | .ok (some o, n) =>
    let r := handle c.st o
    if r.2 then ⟨c.buffer.drop n, r.1, true⟩
    else pump handle ⟨c.buffer.drop n, r.1, c.dead⟩
termination_by c.buffer.length
decreasing_by
  have hne : c.buffer ≠ [] := by
    intro h0; rw [h0, berDecodeObject_nil] at _h; cases _h
  have := decodeObject_consumed hne _h
  simp only [List.length_drop]
  omega

/-- `dataReceived` (ldapserver.py:30-31, ldapclient.py:54-55). -/
def dataReceived {σ : Type} (handle : Handler σ) (c : Conn σ) (recd : Bytes) : Conn σ :=
  if c.dead then c else pump handle { c with buffer := c.buffer ++ recd }

/-- A whole session: the segments in the order in which they arrive. -/
def feed {σ : Type} (handle : Handler σ) (c : Conn σ) (segments : List Bytes) : Conn σ :=
  segments.foldl (dataReceived handle) c

/-- A fresh connection. -/
def fresh {σ : Type} (s : σ) : Conn σ := ⟨[], s, false⟩

end Verif.Conn
