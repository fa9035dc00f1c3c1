import Verif.Spec.Session
import Verif.Model.SambaPassword
/-
Ways to speak about changing a password everywhere.
-/
namespace Verif.Spec
open Verif.Spec.Modify

/-- The attributes say that the entry is of this object class; names of classes are compared without regard to case. -/
def OfClass (d : Verif.Attrs) (cls : String) : Prop :=
  ∃ v, Has d (fold (Server.ascii "objectClass")) v ∧ fold v.toBytes = fold (Server.ascii cls)

/-- The attributes for the two hashes: those of the old schema of Samba, if the entry is of its class, or those of the new. -/
inductive SambaNames (d : Verif.Attrs) : String → String → Prop where
  | old : OfClass d "sambaAccount" → SambaNames d "ntPassword" "lmPassword"
  | new : ¬ OfClass d "sambaAccount" → OfClass d "sambaSamAccount" → SambaNames d "sambaNTPassword" "sambaLMPassword"

/-- What comes back to the client is what the server says: there is a connection that is fit for each request, and if the exchange
over it ends with a response, the client is given that.  (The messages go over the network in any segments, see `Exchanged`.) -/
structure Works (net : SambaPassword.Net) (env : Server.Env) (luck : Server.Luck) (app : Client.App) (fuel c : Nat)
    (world : Ldap.Obj → Server.State → Client.World) : Prop where
  connected : ∀ r st, ((world r st).conns c).connected = true
  id : ∀ r st, 0 < (world r st).nextId ∧ (world r st).nextId < 2 ^ 31
  free : ∀ r st, ((world r st).conns c).onwire.lookup (world r st).nextId = none
  ask : ∀ r st st' m, Exchanged env luck app fuel c (world r st) (.send c r none) st st' (.response m) → net.ask r st = (st', m)

end Verif.Spec
