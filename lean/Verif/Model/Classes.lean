import Verif.Model.Commands

/-!
# Constructors of the classes

Reading octets into a new object of a class. `Commands.lean` has the constructors of keys, detached signatures and revocation certificates, `Verify.lean` the
one of messages.
-/
namespace OpenPGP
open Cli
variable {E : Type}

/-- `PublicKey::PublicKey(data)`, `PublicKey::PublicKey(stream)` (Key.cpp:546-552): the constructor of the base class, and nothing else. The call of
`meaningful` in it is the one of the base class, since the object is not yet a `PublicKey`. -/
def publicKeyOf (readE : Bytes → Out E) (data : Bytes) : Out (List (Bytes × Bytes) × KeyObj E) := keyOf readE data

/-- `SecretKey::SecretKey(data)`, `SecretKey::SecretKey(stream)` (Key.cpp:609-615). -/
def secretKeyOf (readE : Bytes → Out E) (data : Bytes) : Out (List (Bytes × Bytes) × KeyObj E) := keyOf readE data

/-- `PublicKey::meaningful` (Key.cpp:560-567). -/
def publicMeaningful (k : KeyObj E) : Out Bool := if k.kind ≠ .pub then .ok false else k.meaningful

/-- `SecretKey::meaningful` (Key.cpp:644-651). -/
def secretMeaningful (k : KeyObj E) : Out Bool := if k.kind ≠ .sec then .ok false else k.meaningful

/-- `Message::Message(pgp)` (Message.cpp:146-155) with `decompress` (Message.cpp:116-137): no check of the packets, unless they are compressed. -/
def Msg.ofPgp (z : Zip) (readE : Bytes → Out E) (depth : Nat) (o : PgpObj (Pkt E)) : Out (Msg E) :=
  match o.packets with
  | [⟨fmt, part, .compressed alg d⟩] => do
    let inner ← decompress z alg d
    Msg.readLoop z readE depth (some (fmt, part, alg)) inner
  | ps => .ok ⟨none, ps⟩

end OpenPGP
