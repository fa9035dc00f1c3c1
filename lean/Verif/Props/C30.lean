import Verif.Lemmas.Ldif
/-
C30  LDIF parsing does not depend on how the input is chunked.
-/
namespace Verif.C30
open Verif.Ldif

/-- What is delivered, and the exception, depend on the octets only, for entries (`d = false`) and change records. -/
theorem chunking (U : Unicode) (d : Bool) (chunks chunks' : List Bytes) (h : chunks.flatten = chunks'.flatten) :
    parse U d chunks = parse U d chunks' := by
  unfold parse; rw [feed_flatten, feed_flatten, h]

/-- The same for the parser of the on-disk tree. -/
theorem chunking_stored (U : Unicode) (chunks chunks' : List Bytes) (h : chunks.flatten = chunks'.flatten) :
    parseStored U chunks = parseStored U chunks' := by
  unfold parseStored; rw [feed_flatten, feed_flatten, h]

/-- More: reading goes on from the same state, whatever the chunks were. -/
theorem state_determined (U : Unicode) (d : Bool) (chunks chunks' : List Bytes) (h : chunks.flatten = chunks'.flatten) :
    feed U (fresh d) chunks = feed U (fresh d) chunks' := by
  rw [feed_flatten, feed_flatten, h]

/-- A continuation line and a value in base64, cut in the middle of a line. -/
example : [Server.ascii "dn: c", Server.ascii "n=a\nsn: x\n", Server.ascii " y\nsn:: eg==\n", Server.ascii "\n"].flatten =
      [Server.ascii "dn: cn=a\nsn: x\n y\nsn:: eg==\n\n"].flatten ∧
    parse asciiTables false [Server.ascii "dn: c", Server.ascii "n=a\nsn: x\n", Server.ascii " y\nsn:: eg==\n", Server.ascii "\n"] =
      ([.entry ⟨[[⟨['c','n'], ['a']⟩]], [(.bytes [115, 110], [.bytes [120, 121], .bytes [122]])]⟩], none) := by
  decide +kernel

end Verif.C30
