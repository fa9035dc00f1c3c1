import Verif.Spec.Message
import Verif.Model.Server
/-
Specification vocabulary for an LDAP server: which response belongs to which request (RFC 4511), and the bound under
which every response can be encoded.
-/
namespace Verif.Spec
open Verif.Ldap

/-- The final response to a request, RFC 4511 sections 4.2 to 4.12: its kind is that of the request. -/
inductive FinalFor : Obj → Op → Prop where
  | bind {t v d a c m e} : FinalFor (.bind t v d a) (.bindResponse c m e none)
  | search {t b s d sl tl ty f as c m e} : FinalFor (.searchRequest t b s d sl tl ty f as) (.result .searchDone c m e)
  | modify {t o ms c m e} : FinalFor (.modifyRequest t o ms) (.result .modify c m e)
  | add {t n as c m e} : FinalFor (.addRequest t n as) (.result .add c m e)
  | delete {t v c m e} : FinalFor (.oct .delRequest t v) (.result .delete c m e)
  | modifyDN {t n r d s c m e} : FinalFor (.modifyDN t n r d s) (.result .modifyDN c m e)
  | compare {t n a c m e} : FinalFor (.compare t n a) (.result .compare c m e)
  | extended {t n v c m e name} : FinalFor (.extRequest t n v) (.extResponse c m e name none)

/-- The requests that are answered by exactly one final response: all but unbind and abandon. -/
inductive Answerable : Obj → Prop where
  | bind {t v d a} : Answerable (.bind t v d a)
  | search {t b s d sl tl ty f as} : Answerable (.searchRequest t b s d sl tl ty f as)
  | modify {t o ms} : Answerable (.modifyRequest t o ms)
  | add {t n as} : Answerable (.addRequest t n as)
  | delete {t v} : Answerable (.oct .delRequest t v)
  | modifyDN {t n r d s} : Answerable (.modifyDN t n r d s)
  | compare {t n a} : Answerable (.compare t n a)
  | extended {t n v} : Answerable (.extRequest t n v)

/-- The target of a delete request is an entry that has entries below it and is not the root. -/
def DeletesNonLeaf (env : Server.Env) (st : Server.State) (request : Obj) : Prop :=
  ∃ t v s d i n, request = .oct .delRequest t v ∧ Utf8.decode v = .ok s ∧ Dn.Dn.parse env.U s = .ok d ∧
    Tree.lookup env.U st.heap 0 d = .ok i ∧ st.heap[i]? = some n ∧ n.parent ≠ none ∧ n.children ≠ []

/-- The result code of a final response. -/
def Op.code : Op → Option Int
  | .bindResponse c _ _ _ | .result _ c _ _ | .extResponse c _ _ _ _ => some c
  | _ => none

/-- An intermediate response to a search: an entry. -/
def IsEntry (o : Obj) : Prop := ∃ name attrs, o = .searchEntry 0x44 name attrs

/-- Four gigabytes. -/
def Fit (b : Bytes) : Prop := b.length < 2 ^ 32

/-- Everything that may become part of a final response is shorter than four gigabytes. -/
structure Fits (luck : Server.Luck) (st : Server.State) (request : Obj)
    (controls : Option (List (PyVal × PyVal × PyVal))) : Prop where
  text : ∀ e, Fit (luck.text e)
  dns : ∀ n ∈ st.heap, Fit (Utf8.encode n.entry.dn.text)
  controls : ∀ cs ∈ controls, ∀ c ∈ cs, ∀ b, c.1 = .bytes b → Fit b
  name : ∀ t n v, request = .extRequest t (.bytes n) v → Fit n
  version : ∀ t v d a, request = .bind t (.int v) d a → Fit (decimal v)

end Verif.Spec
