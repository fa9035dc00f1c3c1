import Verif.Model.Server
/-
Model of the connected entry, /repo/ldaptor/protocols/ldap/ldapsyntax.py:94-376, 388-434, 608-637:
`JournaledLDAPAttributeSet` and the editing part of `LDAPEntryWithClient`.

Simplifications: an attribute set is always taken freshly from the entry (`entry[key].add(value)`); sets that were taken
out earlier and kept are not modelled, nor are the methods of `set` that the class does not override (`discard`, `pop`,
`|=`), which change the set without a record.  Sequences of values are lists.  The request is kept as the modifications it
was made of; `asLDAP` (delta.py:19-44) writes them out, see `Change` in `Spec/Modify`.
-/
namespace Verif.Syntax
open Verif.Ldap

/-- The exceptions, as far as they are told apart. -/
inductive Err where
  /-- `ObjectDeletedError` -/
  | deleted
  /-- `ObjectDirtyError` -/
  | dirty
  /-- `CannotRemoveRDNError` -/
  | cannotRemoveRDN
  /-- `DNNotPresentError` -/
  | notPresent
  /-- `LookupError` -/
  | lookup
  /-- an exception made from a result code -/
  | ldap (code : Int)
  | py (e : PyErr)
  deriving DecidableEq, Repr

/-- ldapsyntax.py:139-161: `dn` and `_attributes`, the attributes of `_remoteData`, `_journal`, `_state == "deleted"`,
`complete`. -/
structure St where
  dn : Dn.Dn
  attrs : Attrs
  remote : Attrs
  journal : List Mod
  deleted : Bool
  complete : Bool
  deriving DecidableEq, Repr

/-- ldapsyntax.py:139-161 `__init__` -/
def init (U : Unicode) (dn : Dn.Dn) (attributes : List (PyStr × List PyStr)) (complete : Bool) : St :=
  ⟨dn, Tree.buildAttrs U attributes, Tree.buildAttrs U attributes, [], false, complete⟩

/-- ldapsyntax.py:202-213 `journal` -/
def St.record (s : St) (m : Mod) : St := { s with journal := s.journal ++ [m] }

/-- The attribute stored under a name, with the spelling it is stored under. -/
def findItem (U : Unicode) (k : PyStr) : Attrs → Option (PyStr × List PyStr)
  | [] => none
  | (k', vs) :: d => if k'.lower U = k.lower U then some (k', vs) else findItem U k d

/-- The loop of entry.py:66-70. -/
def firstItem (U : Unicode) (d : Attrs) : List PyStr → Option (PyStr × List PyStr)
  | [] => none
  | k :: ks =>
    match findItem U k d with
    | some p => some p
    | none => firstItem U d ks

/-- ldapsyntax.py:216-218, entry.py:66-70 `entry[key]`: the `key` of the attribute set and its values. -/
def target (U : Unicode) (s : St) (k : PyStr) : Except Err (PyStr × List PyStr) :=
  if s.deleted then .error .deleted
  else
    match k.getStrings with
    | .error e => .error (.py e)
    | .ok ks =>
      match firstItem U s.attrs ks with
      | none => .error (.py .keyError)
      | some p => .ok p

/-- The set stored under a name is changed in place. -/
def St.put (U : Unicode) (s : St) (key : PyStr) (vs : List PyStr) : St :=
  { s with attrs := s.attrs.update U key fun _ => vs }

/-- ldapsyntax.py:166-176 `_canRemove`: the exception. -/
def canRemove (s : St) (key value : PyStr) : Option Err :=
  if s.deleted then some .deleted
  else
    match s.dn with
    | [] => some (.py .indexError)
    | r :: _ => if r.any fun a => PyStr.text a.attributeType = key && PyStr.text a.value = value then some .cannotRemoveRDN else none

/-- ldapsyntax.py:178-189 `_canRemoveAll`: the exception. -/
def canRemoveAll (s : St) (key : PyStr) : Option Err :=
  if s.deleted then some .deleted
  else
    match s.dn with
    | [] => some (.py .indexError)
    | r :: _ => if r.any fun a => PyStr.text a.attributeType = key then some .cannotRemoveRDN else none

/-- The edits. -/
inductive Edit where
  /-- `entry[key].add(value)` -/
  | add (key value : PyStr)
  /-- `entry[key].update(values)` -/
  | update (key : PyStr) (values : List PyStr)
  /-- `entry[key].remove(value)` -/
  | remove (key value : PyStr)
  /-- `entry[key].clear()` -/
  | clear (key : PyStr)
  /-- `entry[key] = values` -/
  | set (key : PyStr) (values : List PyStr)
  /-- `del entry[key]` -/
  | del (key : PyStr)
  deriving DecidableEq, Repr

/-- ldapsyntax.py:99-101 `JournaledLDAPAttributeSet.add` -/
def addValue (U : Unicode) (s : St) (key : PyStr) (vs : List PyStr) (v : PyStr) : St × Option Err :=
  match AttributeSet.add vs v with
  | .ok vs' => ((s.record ⟨.add, key, [v]⟩).put U key vs', none)
  | .error e => (s.record ⟨.add, key, [v]⟩, some (.py e))

/-- ldapsyntax.py:107-112 `JournaledLDAPAttributeSet.remove` -/
def removeValue (U : Unicode) (s : St) (key : PyStr) (vs : List PyStr) (v : PyStr) : St × Option Err :=
  if v ∈ vs then
    match canRemove s key v with
    | some e => (s, some e)
    | none =>
      match AttributeSet.remove vs v with
      | .ok vs' => ((s.record ⟨.delete, key, [v]⟩).put U key vs', none)
      | .error e => (s.record ⟨.delete, key, [v]⟩, some (.py e))
  else (s, some .lookup)

/-- ldapsyntax.py:114-117 `JournaledLDAPAttributeSet.clear` -/
def clearValues (U : Unicode) (s : St) (key : PyStr) : St × Option Err :=
  match canRemoveAll s key with
  | some e => (s, some e)
  | none => ((s.put U key []).record ⟨.delete, key, []⟩, none)

/-- ldapsyntax.py:301-307 `__setitem__` -/
def setItem (U : Unicode) (s : St) (key : PyStr) (vs : List PyStr) : St × Option Err :=
  match canRemoveAll s key with
  | some e => (s, some e)
  | none => ({ s with attrs := s.attrs.set U key (mkSet vs) }.record ⟨.replace, key, mkSet vs⟩, none)

/-- ldapsyntax.py:309-314 `__delitem__` -/
def delItem (U : Unicode) (s : St) (key : PyStr) : St × Option Err :=
  match canRemoveAll s key with
  | some e => (s, some e)
  | none =>
    match s.attrs.find U key with
    | none => (s, some (.py .keyError))
    | some _ => ({ s with attrs := s.attrs.erase U key }.record ⟨.delete, key, []⟩, none)

/-- One edit: the entry afterwards, and the exception if there was one. -/
def edit (U : Unicode) (s : St) : Edit → St × Option Err
  | .add k v =>
    match target U s k with
    | .error e => (s, some e)
    | .ok p => addValue U s p.1 p.2 v
  | .update k vs => -- ldapsyntax.py:103-105
    match target U s k with
    | .error e => (s, some e)
    | .ok p => ((s.record ⟨.add, p.1, mkSet vs⟩).put U p.1 (AttributeSet.update p.2 vs), none)
  | .remove k v =>
    match target U s k with
    | .error e => (s, some e)
    | .ok p => removeValue U s p.1 p.2 v
  | .clear k =>
    match target U s k with
    | .error e => (s, some e)
    | .ok p => clearValues U s p.1
  | .set k vs => setItem U s k vs
  | .del k => delItem U s k

/-- ldapsyntax.py:319-320: the loop of `undo`. -/
def rebuild (U : Unicode) (l : Attrs) : Attrs := l.foldl (fun d p => d.set U p.1 (mkSet p.2)) []

/-- ldapsyntax.py:316-321 `undo` -/
def undo (env : Server.Env) (s : St) : St × Option Err :=
  if s.deleted then (s, some .deleted)
  else
    match Server.items env ⟨s.dn, s.remote⟩ with
    | .error e => ({ s with attrs := [] }, some (.py e))
    | .ok l => ({ s with attrs := rebuild env.U l, journal := [] }, none)

/-- ldapsyntax.py:338-348 `commit`: the modifications of the request that is sent, if one is sent. -/
def commit (s : St) : Except Err (Option (List Mod)) :=
  if s.deleted then .error .deleted else if s.journal = [] then .ok none else .ok (some s.journal)

/-- ldapsyntax.py:323-324 `_assertMatchedDN` -/
def noDn (v : PyVal) : Bool := v = .bytes []

/-- ldapsyntax.py:326-336 `_commit_success`.  A result code that is not an integer raises something else in the code; the entry
is unchanged either way. -/
def committed (env : Server.Env) (s : St) : Obj → St × Option Err
  | .result .modifyResponse _ (.int code) matched _ _ =>
    if code ≠ 0 then (s, some (.ldap code))
    else if noDn matched then
      if s.deleted then (s, some .deleted)
      else
        match Server.items env ⟨s.dn, s.attrs⟩ with
        | .error e => (s, some (.py e))
        | .ok l => ({ s with remote := Tree.buildAttrs env.U l, journal := [] }, none)
    else (s, some (.py .assertionError))
  | _ => (s, some (.py .assertionError))

/-- ldapsyntax.py:628-637 `fetch`: whether a search is sent. -/
def fetch (s : St) : Except Err Unit :=
  if s.deleted then .error .deleted else if s.journal = [] then .ok () else .error .dirty

/-- entry.py:90-100 `keys` -/
def keys (env : Server.Env) (d : Attrs) : List PyStr :=
  ((Server.classKeys env).filter fun k => (d.find env.U k).isSome) ++
    ((Server.sortItems d).map (·.1)).filter fun k => !Server.isClassKey env.U k

/-- ldapsyntax.py:621-624: the loop of `_cbFetch`. -/
def overwrite (U : Unicode) (o : Entry) : List PyStr → Attrs → Py Attrs
  | [], d => .ok d
  | k :: ks, d =>
    match o.get U k with
    | .error e => .error e
    | .ok none => overwrite U o ks d
    | .ok (some vs) => overwrite U o ks (d.set U k (mkSet vs))

/-- ldapsyntax.py:608-626 `_cbFetch`; `wanted` are the attributes asked for.  (An exception half-way leaves the entry half
changed; the loop raises for names that are not UTF-8.) -/
def fetched (env : Server.Env) (s : St) (results : List Attrs) (wanted : List PyStr) : St × Option Err :=
  match results with
  | [o] =>
    if s.journal ≠ [] then (s, some (.py .assertionError))
    else
      let start := if wanted = [] then { s with remote := [], complete := true } else s
      match overwrite env.U ⟨s.dn, o⟩ (if wanted = [] then keys env o else wanted) start.remote with
      | .error e => (start, some (.py e))
      | .ok d => undo env { start with remote := d }
  | _ => (s, some .notPresent)

/-- ldapsyntax.py:388-395 `delete`: the entry counts as deleted from the moment the request is sent. -/
def delete (s : St) : St × Option Err := if s.deleted then (s, some .deleted) else ({ s with deleted := true }, none)

/-! ### Histories -/

inductive Event where
  | edit (e : Edit)
  | undo
  /-- `commit()` -/
  | commit
  /-- the answer to the oldest request that was not answered yet -/
  | answer (msg : Obj)

/-- The entry with the requests that were not answered yet, oldest first. -/
structure World where
  entry : St
  pending : List (List Mod)

def step (env : Server.Env) (w : World) : Event → World
  | .edit e => { w with entry := (edit env.U w.entry e).1 }
  | .undo => { w with entry := (undo env w.entry).1 }
  | .commit =>
    match commit w.entry with
    | .ok (some ms) => { w with pending := w.pending ++ [ms] }
    | _ => w
  | .answer msg =>
    match w.pending with
    | [] => w
    | _ :: rest => ⟨(committed env w.entry msg).1, rest⟩

def run (env : Server.Env) (w : World) (es : List Event) : World := es.foldl (step env) w

end Verif.Syntax
