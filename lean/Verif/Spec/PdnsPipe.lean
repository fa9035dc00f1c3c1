import Verif.Model.PdnsPipe
/-
Specification vocabulary for the PowerDNS backend: a service that keeps one slot for each line it was sent, in order, and no
queues.  What it sends is what the slots say, up to the first that is not answered.
-/
namespace Verif.Spec.Pdns
open Verif.PdnsPipe

/-- A line that was received: it waits for the entry to search at, or for the search, or is answered. -/
inductive Slot where
  | waiting (q : Question)
  | searching (q : Question)
  | answered (lines : List Str)
  deriving DecidableEq, Repr

/-- `stuck`: connecting to the directory raised. -/
structure Ideal where
  main : Bool
  entry : Bool
  fetching : Bool
  stuck : Bool
  ended : Bool
  slots : List Slot
  deriving DecidableEq, Repr

/-- What has been sent. -/
def sent : List Slot → List Str
  | .answered lines :: s => lines ++ sent s
  | _ => []

def Slot.isAnswered : Slot → Bool
  | .answered _ => true
  | _ => false

def Slot.isWaiting : Slot → Bool
  | .waiting _ => true
  | _ => false

/-- A question is searched for, unless its filter is refused. -/
def looked (cfg : Config) (q : Question) : Slot :=
  match FilterText.parseFilter q.filter with
  | .error e => .answered (failLines (cfg.trace e))
  | .ok _ => .searching q

/-- Every question that waited is looked up. -/
def goOn (cfg : Config) : Slot → Slot
  | .waiting q => looked cfg q
  | s => s

/-- Every question that waited has failed. -/
def giveUp (trace : List Str) : Slot → Slot
  | .waiting _ => .answered (failLines trace)
  | s => s

/-- How many lines wait for the directory; a call that raised is counted for ever. -/
def load (i : Ideal) : Nat := (i.slots.filter Slot.isWaiting).length + if i.stuck then 1 else 0

/-- The slot of a new question, and what becomes of the service. -/
def enter (cfg : Config) (i : Ideal) (q : Question) (raises : Option (List Str)) : Ideal :=
  if i.entry then { i with slots := i.slots ++ [looked cfg q] }
  else if load i > 10 then { i with slots := i.slots ++ [.answered (failLines (cfg.trace .other))] }
  else if i.fetching then { i with slots := i.slots ++ [.waiting q] }
  else
    match raises with
    | none => { i with slots := i.slots ++ [.waiting q], fetching := true }
    | some t => { i with slots := i.slots ++ [.answered (failLines t)], fetching := true, stuck := true }

/-- One event. -/
def tick (cfg : Config) (i : Ideal) : Event → Ideal
  | .line text raises =>
    if i.ended then i
    else
      match hear cfg i.main text with
      | (m, .now lines) => { i with main := m, slots := i.slots ++ [.answered lines] }
      | (m, .ask q) => enter cfg { i with main := m } q raises
  | .fetched fails =>
    if i.fetching ∧ ¬ i.stuck then
      match fails with
      | none => { i with fetching := false, entry := true, slots := i.slots.map (goOn cfg) }
      | some t => { i with fetching := false, slots := i.slots.map (giveUp t) }
    else i
  | .found id r =>
    match i.slots[id]? with
    | some (.searching q) => { i with slots := i.slots.set id (.answered (finish cfg q r)) }
    | _ => i
  | .lost => { i with entry := false }
  | .eof => { i with ended := true }

/-- All events. -/
def ideal (cfg : Config) (events : List Event) : Ideal := events.foldl (tick cfg) ⟨false, false, false, false, false, []⟩

/-- How many lines arrive before the input ends. -/
def heard : List Event → Nat
  | [] => 0
  | .eof :: _ => 0
  | .line _ _ :: es => heard es + 1
  | _ :: es => heard es

/-- A line that does not end an answer. -/
def Inner (l : Str) : Prop := "DATA\t".toList <+: l ∨ "LOG\t".toList <+: l

/-- A line that ends an answer. -/
def Last (l : Str) : Prop := l = "END".toList ∨ l = "FAIL".toList ∨ "OK\t".toList <+: l

/-- One answer of the protocol: data and remarks, then one line that ends it. -/
def Answer (lines : List Str) : Prop := ∃ body last, lines = body ++ [last] ∧ (∀ l ∈ body, Inner l) ∧ Last last

/-- A name without the syntax of filters. -/
def Plain (s : Str) : Prop := s ≠ [] ∧ ∀ c ∈ s, c ≠ '*' ∧ c ≠ '(' ∧ c ≠ ')' ∧ c ≠ '\\' ∧ c ≠ '\x00' ∧ c ≠ '\t'

/-- The line that asks for records of a type. -/
def question (type name ident ip : Str) : Str :=
  "Q\t".toList ++ name ++ "\tIN\t".toList ++ type ++ ['\t'] ++ ident ++ ['\t'] ++ ip

/-- A record of the answer. -/
def record (type name value : Str) : Str :=
  "DATA\t".toList ++ name ++ "\tIN\t".toList ++ type ++ "\t3600\t-1\t".toList ++ value

end Verif.Spec.Pdns
