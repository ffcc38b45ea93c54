import Verif.Model.Hashes

/-!
# What a history of calls on a hash object should return
-/
namespace OpenPGP

/-- The digests that a history of calls should return when the octets `m` have been hashed before: every digest
is `H` of everything hashed so far. -/
def expectedDigests (H : Bytes → Bytes) : List HashCall → Bytes → List Bytes
  | [], _ => []
  | .update s :: cs, m => expectedDigests H cs (m ++ s)
  | .digest :: cs, m => H m :: expectedDigests H cs m

/-- All octets given to `update`. -/
def totalInput : List HashCall → Nat
  | [] => 0
  | .update s :: cs => s.length + totalInput cs
  | .digest :: cs => totalInput cs

end OpenPGP
