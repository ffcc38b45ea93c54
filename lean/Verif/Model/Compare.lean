import Verif.Model.Packets
import Verif.Model.Cleartext
import Verif.Model.Crypt

/-!
# Comparing objects: `operator==`
-/
namespace OpenPGP
variable {E : Type}

/-- `operator==(const Tag::Ptr &, const Tag::Ptr &)` (Packet.h:177-182) for pointers that are not null; `&&` does not look at the bodies of packets with
different tags. -/
def pktEq (rawE : E → Bytes) (a b : Pkt E) : Out Bool :=
  if a.body.tag = b.body.tag then do
    let x ← a.body.raw rawE
    let y ← b.body.raw rawE
    return x = y
  else .ok false

/-- `operator!=(const Tag::Ptr &, const Tag::Ptr &)` (Packet.h:184-186). -/
def pktNe (rawE : E → Bytes) (a b : Pkt E) : Out Bool := do
  let x ← pktEq rawE a b
  return !x

/-- The loop of `PGP::operator==` (PGP.cpp:593-601); the lists have the same length. A null pointer is `none`. -/
def sameBodies (rawE : E → Bytes) : List (Option (Pkt E)) → List (Option (Pkt E)) → Out Bool
  | some a :: as, some b :: bs => do
    let x ← a.body.raw rawE
    let y ← b.body.raw rawE
    if x ≠ y then return false
    sameBodies rawE as bs
  | [], _ => .ok true
  | _ :: _, [] => .ok true
  | _ :: _, _ :: _ => .ok false

/-- `PGP::operator==` (PGP.cpp:579-604), which keys, messages and signatures inherit. -/
def pgpEq (rawE : E → Bytes) (a b : PgpObj (Option (Pkt E))) : Out Bool :=
  if a.type ≠ b.type then .ok false
  else if a.packets.length ≠ b.packets.length then .ok false
  else sameBodies rawE a.packets b.packets

/-- A message as a `PGP` object: `Message` adds the member `comp` (Message.h) and does not override `operator==`. -/
def msgEq (rawE : E → Bytes) (a b : Msg E) : Out Bool :=
  pgpEq rawE ⟨true, 1, [], a.packets.map some⟩ ⟨true, 1, [], b.packets.map some⟩

/-- `CleartextSignature::operator==` (CleartextSignature.cpp:269-273). -/
def cleartextEq (rawE : E → Bytes) (a b : Cleartext (Option (Pkt E))) : Out Bool :=
  if a.headers = b.headers then
    if a.message = b.message then pgpEq rawE a.sig b.sig
    else .ok false
  else .ok false

/-- The constructors from a string, `Tag1(data)`, `Tag2(data)`, ... (for instance Tag13.cpp:28-32): the object with the tag of its class reads the body from the string
(Packet.cpp:107-109). `Tag14(data)` (Tag14.cpp:14-16) is the exception: the base class is constructed by `Tag6()` (Tag6.cpp:57-59), so the tag of the object is 6, and it
behaves like a `Tag6`. -/
def constructFrom (readE : Bytes → Out E) (cls : Nat) (data : Bytes) : Out (Pkt E) := do
  let b ← Body.parse readE cls ⟨data, 0, data.length, false⟩
  return ⟨.new, false, match b with
    | .publicSubkey k => .publicKey k
    | b => b⟩

end OpenPGP
