import Verif.Spec.Modify
import Verif.Spec.Search
import Verif.Model.Syntax
/-
Ways to speak about the edits of a connected entry.
-/
namespace Verif.Spec.Modify
open Verif.Syntax

/-- How the program spells things: for each attribute, whether its name is given as text or as octets, and which values
it may have. -/
structure Vocabulary where
  text : Bytes → Bool
  value : Bytes → PyStr → Prop

/-- Values are text or UTF-8, and no value has two forms. -/
structure Vocabulary.Fine (V : Vocabulary) : Prop where
  decodable : ∀ n v, V.value n v → v.Decodable
  oneForm : ∀ n v w, V.value n v → V.value n w → v.toBytes = w.toBytes → v = w

/-- The values of an attribute are all text or all octets. -/
def Vocabulary.Plain (V : Vocabulary) : Prop := ∀ n v w, V.value n v → V.value n w → v.isText = w.isText

/-- A name that is spelled as agreed. -/
structure Vocabulary.Name (V : Vocabulary) (k : PyStr) : Prop where
  ascii : k.Ascii
  kind : k.isText = V.text (fold k.toBytes)

/-- Attributes whose names are spelled as agreed, each listed once. -/
structure Vocabulary.Named (V : Vocabulary) (d : Verif.Attrs) : Prop where
  names : ∀ p ∈ d, V.Name p.1
  apart : d.Pairwise fun p q => fold p.1.toBytes ≠ fold q.1.toBytes

/-- Their values are as agreed, too. -/
structure Vocabulary.Tidy (V : Vocabulary) (d : Verif.Attrs) : Prop extends V.Named d where
  values : ∀ p ∈ d, ∀ v ∈ p.2, V.value (fold p.1.toBytes) v
  nodup : ∀ p ∈ d, p.2.Nodup

/-- An edit that uses names and values as agreed.  The sets of an entry may be reached through any spelling. -/
def Vocabulary.Speaks (V : Vocabulary) : Edit → Prop
  | .add k v => k.Ascii ∧ V.value (fold k.toBytes) v
  | .update k vs => k.Ascii ∧ ∀ v ∈ vs, V.value (fold k.toBytes) v
  | .remove _ _ => True
  | .clear k => k.Ascii
  | .set k vs => V.Name k ∧ ∀ v ∈ vs, V.value (fold k.toBytes) v
  | .del k => k.Ascii

/-- An edit that makes sense on this content: what is added is new, what is cleared is there. -/
def Sensible (c : Content) : Edit → Prop
  | .add k v => ¬ c (fold k.toBytes) v.toBytes
  | .update k vs => vs ≠ [] ∧ ∀ v ∈ vs, ¬ c (fold k.toBytes) v.toBytes
  | .remove _ _ => True
  | .clear k => ∃ b, c (fold k.toBytes) b
  | .set _ _ => True
  | .del k => ∃ b, c (fold k.toBytes) b

/-- `v` is a value of the attribute called `n`, in just this form. -/
def Has (d : Verif.Attrs) (n : Bytes) (v : PyStr) : Prop := ∃ p ∈ d, fold p.1.toBytes = n ∧ v ∈ p.2

/-- The answer to a modify request that was carried out (RFC 4511, 4.1.9: there is no matched DN). -/
def done (tag : UInt8) (message creds : Ldap.PyVal) : Ldap.Obj := .result .modifyResponse tag (.int 0) (.bytes []) message creds

/-- The answer to a modify request that was not carried out. -/
def Refused (msg : Ldap.Obj) : Prop :=
  ∃ tag code matched message creds, code ≠ 0 ∧ msg = .result .modifyResponse tag (.int code) matched message creds

/-- What happens between a program and a server that carries out a request whole or not at all, while the program lets
the entry alone as long as a request is not answered. -/
inductive Calm (env : Server.Env) : World → Content → List Event → World → Content → Prop where
  | nil (w c) : Calm env w c [] w c
  | edit {w c e es w' c'} : w.pending = [] → Calm env (step env w (.edit e)) c es w' c' → Calm env w c (.edit e :: es) w' c'
  | undo {w c es w' c'} : w.pending = [] → Calm env (step env w .undo) c es w' c' → Calm env w c (.undo :: es) w' c'
  | commit {w c es w' c'} : w.pending = [] → Calm env (step env w .commit) c es w' c' → Calm env w c (.commit :: es) w' c'
  | done {w c ms rest tag message creds es w' c'} : w.pending = ms :: rest →
      Calm env (step env w (.answer (done tag message creds))) (effects (ms.map change) c) es w' c' →
      Calm env w c (.answer (Modify.done tag message creds) :: es) w' c'
  | refused {w c msg es w' c'} : Refused msg → Calm env (step env w (.answer msg)) c es w' c' → Calm env w c (.answer msg :: es) w' c'

/-- The attributes of an entry as the vocabulary of programs that use only text, or only octets that are UTF-8. -/
def allText : Vocabulary := ⟨fun _ => true, fun _ v => v.isText = true⟩
/-- Names and values that are octets, as a server gets them. -/
def rawOctets : Vocabulary := ⟨fun _ => false, fun _ v => v.isText = false⟩
/-- Octets that are UTF-8. -/
def allOctets : Vocabulary := ⟨fun _ => false, fun _ v => v.isText = false ∧ v.Decodable⟩

end Verif.Spec.Modify
