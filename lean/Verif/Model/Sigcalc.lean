import Verif.Model.Text
import Verif.Model.Key

/-!
# `src/Misc/sigcalc.cpp`: what is hashed for a signature

Pointers that may be null are not modelled (every function throws for null). Each `to_sign_*` is `Hash::use` of an octet string;
that string is a definition of its own (`...Input`).
-/
namespace OpenPGP
variable {E : Type}

/-- `addtrailer` (sigcalc.cpp:11-28). -/
def addtrailer (rawE : E → Bytes) (data : Bytes) (sig : Tag2 E) : Out Bytes := do
  let trailer ← sig.upToHashed rawE
  if sig.version = 3 then return data ++ trailer.drop 1
  else if sig.version = 4 then return data ++ trailer ++ [4, 0xff] ++ be 4 trailer.length
  else .throw

/-- `overkey` (sigcalc.cpp:30-37). -/
def overkey (k : KeyPkt) : Bytes := [0x99] ++ be 2 k.rawCommon.length ++ k.rawCommon

/-- `certification` (sigcalc.cpp:39-61) for a user ID or user attribute packet; `Packet::User` has no other subclass. -/
def certification (rawE : E → Bytes) (version : UInt8) (id : Body E) : Out Bytes := do
  let data ← id.raw rawE
  if version = 3 then return data
  else if version = 4 then
    if id.tag = 13 then return [0xb4] ++ be 4 data.length ++ data
    else if id.tag = 17 then return [0xd1] ++ be 4 data.length ++ data
    else return []
  else .throw

/-- What `to_sign_00` hashes (sigcalc.cpp:67-73). -/
def sign00Input (rawE : E → Bytes) (data : Bytes) (sig : Tag2 E) : Out Bytes := addtrailer rawE data sig

/-- What `to_sign_01` hashes (sigcalc.cpp:96-103). -/
def sign01Input (rawE : E → Bytes) (data : Bytes) (sig : Tag2 E) : Out Bytes := addtrailer rawE (canonicalBody data) sig

/-- What `to_sign_02` hashes (sigcalc.cpp:105-114). -/
def sign02Input (rawE : E → Bytes) (sig : Tag2 E) : Out Bytes := if sig.version = 3 then .throw else addtrailer rawE [] sig

/-- What `to_sign_10` .. `to_sign_13` and `to_sign_30` hash for the type `t` (sigcalc.cpp:116-194, 295-313). -/
def signUserInput (rawE : E → Bytes) (t : UInt8) (key : KeyPkt) (id : Body E) (sig : Tag2 E) : Out Bytes :=
  if sig.type ≠ t then .throw
  else do
    let c ← certification rawE sig.version id
    addtrailer rawE (overkey key ++ c) sig

/-- What `to_sign_cert` hashes (sigcalc.cpp:196-229). -/
def signCertInput (rawE : E → Bytes) (cert : UInt8) (key : KeyPkt) (id : Body E) (sig : Tag2 E) : Out Bytes :=
  if isCertification cert then signUserInput rawE cert key id sig else .throw

/-- What `to_sign_18` and `to_sign_19` hash (sigcalc.cpp:231-245). -/
def signBindingInput (rawE : E → Bytes) (primary key : KeyPkt) (sig : Tag2 E) : Out Bytes :=
  addtrailer rawE (overkey primary ++ overkey key) sig

/-- What `to_sign_1f` hashes (sigcalc.cpp:247-253). -/
def sign1fInput (rawE : E → Bytes) (key : KeyPkt) (sig : Tag2 E) : Out Bytes := addtrailer rawE (overkey key) sig

/-- What `to_sign_20` hashes for a key packet (sigcalc.cpp:255-273). -/
def sign20Input (rawE : E → Bytes) (key : Body E) (sig : Tag2 E) : Out Bytes :=
  match key with
  | .publicKey k => if sig.type ≠ 0x20 then .throw else addtrailer rawE (overkey k) sig
  | .secretKey t => if sig.type ≠ 0x20 then .throw else addtrailer rawE (overkey t.key) sig
  | _ => .throw

/-- What `to_sign_28` hashes for a subkey packet (sigcalc.cpp:275-293). -/
def sign28Input (rawE : E → Bytes) (key : Body E) (sig : Tag2 E) : Out Bytes :=
  match key with
  | .publicSubkey k => if sig.type ≠ 0x28 then .throw else addtrailer rawE (overkey k) sig
  | .secretSubkey t => if sig.type ≠ 0x28 then .throw else addtrailer rawE (overkey t.key) sig
  | _ => .throw

/-- What `to_sign_40` hashes (sigcalc.cpp:315-325). -/
def sign40Input (rawE : E → Bytes) (sig : Tag2 E) : Out Bytes := if sig.type ≠ 0x40 then .throw else addtrailer rawE [] sig

/-- `Hash::use(sig -> get_hash(), ...)`. -/
def digestOf (cr : Crypto) (sig : Tag2 E) (input : Out Bytes) : Out Bytes := do
  let i ← input
  hashUse cr sig.hash i

/-- `to_sign_50` (sigcalc.cpp:327-330): not a digest but the octets. -/
def sign50 (rawE : E → Bytes) (sig : Tag2 E) : Bytes :=
  [0x88] ++ be 4 (sig.withoutUnhashed rawE).length ++ sig.withoutUnhashed rawE

end OpenPGP
