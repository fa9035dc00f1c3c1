import Verif.Spec.Message
/-
Specification vocabulary: a generous bound on the size of an encoded message, from the sizes of its fields.
-/
namespace Verif.Spec

/-- The BER limit on the length of the content of one element: 127 length octets. -/
def lengthLimit : Nat := 256 ^ 127

/-- An element with `n` content octets: at most 129 octets of tag and length. -/
def elementSize (n : Nat) : Nat := n + 129

def intSize (i : Int) : Nat := elementSize (i.natAbs + 1)

def octSize (b : Bytes) : Nat := elementSize b.length

def optSize : Option Bytes → Nat
  | some b => octSize b
  | none => 0

def boolSize : Nat := elementSize 1

def sizeSum {α : Type} (f : α → Nat) : List α → Nat
  | [] => 0
  | x :: xs => f x + sizeSum f xs

mutual
def Filter.size : Filter → Nat
  | .and fs => elementSize (Filter.sizes fs)
  | .or fs => elementSize (Filter.sizes fs)
  | .not f => elementSize f.size
  | .equal a v | .ge a v | .le a v | .approx a v => elementSize (octSize a + octSize v)
  | .substrings a ps => elementSize (octSize a + elementSize (sizeSum (fun p => octSize p.2) ps))
  | .present a => octSize a
  | .ext r t v _ => elementSize (optSize r + (optSize t + (octSize v + boolSize)))
def Filter.sizes : List Filter → Nat
  | [] => 0
  | f :: fs => f.size + Filter.sizes fs
end

def attrSize (kv : Bytes × List Bytes) : Nat := elementSize (octSize kv.1 + elementSize (sizeSum octSize kv.2))

def Op.size : Op → Nat
  | .bindSimple v dn p => elementSize (intSize v + (octSize dn + octSize p))
  | .bindSasl v dn m c => elementSize (intSize v + (octSize dn + elementSize (octSize m + optSize c)))
  | .bindResponse c m e s => elementSize (intSize c + (octSize m + (octSize e + optSize s)))
  | .unbind => 2
  | .search b s d sl tl _ f as => elementSize (octSize b + (intSize s + (intSize d + (intSize sl + (intSize tl +
      (boolSize + (f.size + elementSize (sizeSum octSize as))))))))
  | .entry dn as => elementSize (octSize dn + elementSize (sizeSum attrSize as))
  | .reference us => elementSize (sizeSum octSize us)
  | .result _ c m e => elementSize (intSize c + (octSize m + octSize e))
  | .modify dn cs => elementSize (octSize dn + elementSize (sizeSum (fun c =>
      elementSize (intSize c.1 + attrSize c.2)) cs))
  | .add dn as => elementSize (octSize dn + elementSize (sizeSum attrSize as))
  | .delete dn => octSize dn
  | .modifyDN dn n _ s => elementSize (octSize dn + (octSize n + (boolSize + optSize s)))
  | .compare dn a v => elementSize (octSize dn + elementSize (octSize a + octSize v))
  | .abandon i => intSize i
  | .extRequest n v => elementSize (octSize n + optSize v)
  | .extResponse c m e n v => elementSize (intSize c + (octSize m + (octSize e + (optSize n + optSize v))))

def Control.size (c : Control) : Nat := elementSize (octSize c.oid + (boolSize + optSize c.value))

def controlsSize : Option (List Control) → Nat
  | none => 0
  | some cs => elementSize (sizeSum Control.size cs)

def Msg.size (m : Msg) : Nat := elementSize (intSize m.id + (m.op.size + controlsSize m.controls))

end Verif.Spec
