import Verif.Model.Packets

/-!
# What an object holds after a successful read, given what it held before

`new` is what a new object would hold after reading the same octets.  This is not what a reader should do (it should
leave `new`); it is what the classes do, written down without the readers.
-/
namespace OpenPGP.Spec
variable {E : Type}

/-- Keys: the numbers are added to the old ones.  The expiry of a version 4 key is the old one, and versions above 4 keep
the old algorithm too. -/
def keyAfter (old new : KeyPkt) : KeyPkt :=
  { version := new.version
    time := new.time
    pka := if 4 < new.version then old.pka else new.pka
    mpi := old.mpi ++ new.mpi
    expire := if new.version < 4 then new.expire else old.expire }

/-- Secret keys: what the usage octet does not ask for keeps its old value. -/
def secretAfter (old new : Tag5) : Tag5 :=
  { key := keyAfter old.key new.key
    s2kCon := new.s2kCon
    sym := if new.s2kCon = 0 then old.sym else new.sym
    s2k := if new.s2kCon = 254 ∨ new.s2kCon = 255 then new.s2k else old.s2k
    iv := if new.s2kCon = 0 then old.iv else new.iv
    secret := new.secret }

/-- Signatures: the numbers are added to the old ones; version 3 keeps the old subpackets, version 4 the old time and
key ID members. -/
def sigAfter (old new : Tag2 E) : Tag2 E :=
  { new with
    mpi := old.mpi ++ new.mpi
    time := if new.version = 3 then new.time else old.time
    keyid := if new.version = 3 then new.keyid else old.keyid
    hashed := if new.version = 3 then old.hashed else new.hashed
    unhashed := if new.version = 3 then old.unhashed else new.unhashed }

/-- All packet classes. -/
def after : Body E → Body E → Body E
  | .pkesk old, .pkesk new => .pkesk { new with mpi := old.mpi ++ new.mpi }
  | .sig old, .sig new => .sig (sigAfter old new)
  | .skesk old, .skesk new => .skesk { new with esk := match new.esk with | some e => some e | none => old.esk }
  | .secretKey old, .secretKey new => .secretKey (secretAfter old new)
  | .secretSubkey old, .secretSubkey new => .secretSubkey (secretAfter old new)
  | .publicKey old, .publicKey new => .publicKey (keyAfter old new)
  | .publicSubkey old, .publicSubkey new => .publicSubkey (keyAfter old new)
  | .userAttr old, .userAttr new => .userAttr (old ++ new)
  | _, new => new

/-- The numbers a packet object holds. -/
def numbers : Body E → List Nat
  | .pkesk t => t.mpi
  | .sig s => s.mpi
  | .secretKey t | .secretSubkey t => t.key.mpi
  | .publicKey k | .publicSubkey k => k.mpi
  | _ => []

end OpenPGP.Spec
