import Verif.Model.Key

/-!
# What a key object says besides its key packets

The signatures in a key object say for how long and for what its keys are meant, and which subkeys are its own. Here are the key packets alone, and what anybody can do to
somebody else's public key.
-/
namespace OpenPGP.Policy
variable {E : Type}

/-- The key packets of an object, in order: secret key (5), public key (6), secret subkey (7), public subkey (14). -/
def keyPackets (l : List (Pkt E)) : List (Body E) := (l.map (·.body)).filter fun b => b.tag = 5 ∨ b.tag = 6 ∨ b.tag = 7 ∨ b.tag = 14

/-- A subkey and one signature put in front of the subkeys of a public key. -/
def withSubkey (x : KeyPkt) (s : Tag2 E) (l : List (Pkt E)) : List (Pkt E) :=
  l.takeWhile (·.body.tag ≠ 14) ++ ⟨.new, false, .publicSubkey x⟩ :: ⟨.new, false, .sig s⟩ :: l.dropWhile (·.body.tag ≠ 14)

end OpenPGP.Policy
