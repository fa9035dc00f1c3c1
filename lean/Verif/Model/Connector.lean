import Verif.Model.Dn
import Verif.Model.Decimal
/-
Model of /repo/ldaptor/protocols/ldap/ldapconnector.py, and of the dictionaries config.py hands to it.

`SRVConnector` (Twisted) is not modelled: the host and port it picks are a parameter.
-/
namespace Verif.Connector
open Verif.Dn

variable {α : Type}

/-- `d[k] = v` on a dictionary with DNs as keys: a key is found if hash and equality agree. -/
def dictSet (U : Unicode) (hash : Str → Int) (k : Dn) (v : α) : List (Dn × α) → List (Dn × α)
  | [] => [(k, v)]
  | (k', v') :: rest =>
    if hash k'.text = hash k.text ∧ Dn.eq U k' k = true then (k', v) :: rest else (k', v') :: dictSet U hash k v rest

/-- config.py:36-38: the dictionary filled from a list of items. -/
def build (U : Unicode) (hash : Str → Int) (items : List (Dn × α)) : List (Dn × α) :=
  items.foldl (fun d p => dictSet U hash p.1 p.2 d) []

/-- `d[k]`, `k in d` -/
def dictGet (U : Unicode) (hash : Str → Int) (d : List (Dn × α)) (k : Dn) : Option α :=
  (d.find? fun p => hash p.1.text = hash k.text ∧ Dn.eq U p.1 k = true).map (·.2)

/-- ldapconnector.py:39-47 `_findOverRide`: `get_strings` of a DN is the DN itself; `dn == ""` compares the text. -/
def findOverRide (U : Unicode) (hash : Str → Int) (overrides : List (Dn × α)) : Dn → Option α
  | [] => dictGet U hash overrides []
  | r :: d =>
    match dictGet U hash overrides (r :: d) with
    | some v => some v
    | none => if Dn.text (r :: d) = [] then none else findOverRide U hash overrides d

/-- A host and port in an override; a port may be given as a number or as text. -/
inductive Port where
  | num (n : Int)
  | text (s : Str)
  deriving DecidableEq, Repr

/-- The value of an override, when it is not callable. -/
structure Location where
  host : Option Str
  port : Option Port
  deriving DecidableEq, Repr

/-- An override. -/
inductive Override where
  | call
  | location (l : Location)
  deriving DecidableEq, Repr

/-- What `connect` does. -/
inductive Action where
  | call
  | direct
  | query
  deriving DecidableEq, Repr

/-- ldapconnector.py:49-60 `_isQueryNeeded` for an override that is not callable. -/
def isQueryNeeded : Option Location → Bool
  | none => true
  | some l =>
    match l.host with
    | none => true
    | some _ => match l.port with
      | some _ => false
      | none => true

/-- ldapconnector.py:62-70 `connect` -/
def connect : Option Override → Action
  | some .call => .call
  | none => if !isQueryNeeded none then .direct else .query
  | some (.location l) => if !isQueryNeeded (some l) then .direct else .query

/-- ldapconnector.py:92-95: `int(port)`, and a text that is no number stays. -/
def intPort : Port → Port
  | .num n => .num n
  | .text s =>
    match Decimal.toInt s with
    | .ok n => .num n
    | .error _ => .text s

/-- ldapconnector.py:72-100 `pickServer`, where `srv` is the answer of `SRVConnector.pickServer`.  `self.domain` is never
`None` (line 23). -/
def pickServer (override : Option Location) (srv : Str × Port) : Str × Port :=
  let l := override.getD ⟨none, none⟩
  match l.host, l.port with
  | some h, some p => (h, intPort p)
  | h, p => (h.getD srv.1, intPort (p.getD srv.2))

end Verif.Connector
