import Verif.Model.Crypt
import Verif.Model.Key

/-!
# `Encrypt::pka` and `Decrypt::pka` (`src/encrypt.cpp:76-153`, `src/decrypt.cpp:81-176`)

Random octets and numbers are arguments, as in `Model/Crypt.lean`; the signer argument is not modelled.
-/
namespace OpenPGP
variable {E : Type} (cr : Crypto) (z : Zip) (rawE : E → Bytes) (readE : Bytes → Out E)

/-- The search for an encrypting key (encrypt.cpp:98-109); `cur` is the variable `key`. A last packet that is a key packet is
taken whatever its algorithm. -/
def findEncryptKey : (cur : Option KeyPkt) → List (Pkt E) → Option KeyPkt
  | cur, [] => cur
  | _, p :: ps =>
    match p.body.keyPart with
    | none => findEncryptKey none ps
    | some k => if canEncrypt k.pka then some k else findEncryptKey (some k) ps

/-- `string(1, sym) + session_key + checksum` (encrypt.cpp:124-132). -/
def sessionOctets (sym : UInt8) (key : Bytes) : Bytes := [sym] ++ key ++ be 2 (octetSum key)

/-- Number of octets of the modulus (encrypt.cpp:130-132): half the number of nibbles, rounded up. -/
def modulusOctets (n : Nat) : Nat := ((mpitohex n).length + (mpitohex n).length % 2) / 2

/-- The MPIs of the session key packet (encrypt.cpp:132-141). `draws` are the padding octets, `eph` the random number for
ElGamal. -/
def wrapSessionKey (pka : UInt8) (mpi : List Nat) (draws : Bytes) (eph : Nat) (sym : UInt8) (key : Bytes) : Out (List Nat) := do
  let n ← vecAt mpi 0
  let em ← emeEncode draws (sessionOctets sym key) (modulusOctets n)
  let m ← rawtompi em
  if pka = 1 ∨ pka = 2 then do
    let c ← rsaEncrypt m mpi
    return [c]
  else if pka = 16 then elgamalEncrypt eph m mpi
  else return []

/-- `Encrypt::pka` (encrypt.cpp:76-153) without a signer. `sk` is the session key drawn; one of another length is no run of the
program. -/
def encryptPka (a : EncArgs) (k : KeyObj E) (sk draws : Bytes) (eph : Nat) (rand : Bytes) : Out (Msg E) :=
  if !a.valid then .ok .empty
  else do
    let good ← k.meaningful
    if !good then return .empty
    else match ← k.revokeCheck with
      | .yes => return .empty
      | .error => return .empty
      | .no =>
        match findEncryptKey none k.packets with
        | none => return .empty
        | some kp => do
          let kid ← kp.keyid cr
          let n ← mapAt (keyLen a.sym)
          if sk.length ≠ n then .diverge
          else do
            let c ← wrapSessionKey kp.pka kp.mpi draws eph a.sym sk
            match ← encryptData cr z rawE a rand sk with
            | none => return .empty
            | some e => return ⟨none, [⟨.new, false, .pkesk ⟨3, kid, kp.pka, c⟩⟩, e]⟩

/-- The first public-key session key packet (decrypt.cpp:97-103). -/
def firstPkesk : List (Pkt E) → Option Tag1
  | [] => none
  | ⟨_, _, .pkesk t⟩ :: _ => some t
  | _ :: ps => firstPkesk ps

/-- The search for the secret key packet (decrypt.cpp:115-131); `cur` is the variable `sec`. -/
def findDecryptKey (kid : Bytes) : (cur : Option Tag5) → List (Pkt E) → Out (Option Tag5)
  | cur, [] => .ok cur
  | _, p :: ps =>
    match p.body.secretPart with
    | none => findDecryptKey kid none ps
    | some t => do
      let pub ← t.getPublic
      let id ← pub.keyid cr
      if id ≠ kid then findDecryptKey kid (some t) ps
      else if canEncrypt t.key.pka then return some t
      else findDecryptKey kid (some t) ps

/-- Decryption of the session key octets (decrypt.cpp:144-155). -/
def unwrapSessionKey (t1 : Tag1) (pri pub : List Nat) : Out Bytes := do
  if t1.pka = 1 ∨ t1.pka = 2 then
    let c ← vecAt t1.mpi 0
    let m ← rsaDecrypt c pri pub
    mpitoraw m
  else if t1.pka = 16 then elgamalDecrypt t1.mpi pri pub
  else return []

/-- Padding, cipher octet and checksum (decrypt.cpp:154-172): cipher and session key, `none` when refused. -/
def parseSessionKey (octets : Bytes) : Out (Option (UInt8 × Bytes)) := do
  let s ← emeDecode (0 :: octets)
  if s = [] then return none
  else do
    let sym ← charAt s 0
    let checksum ← substr s (subSz s.length 2) 2
    let key ← substr s 1 (subSz s.length 3)
    if be 2 (octetSum key) ≠ checksum then return none
    else return some (sym, key)

/-- `Decrypt::pka` (decrypt.cpp:77-173). -/
def decryptPka (depth : Nat) (k : KeyObj E) (pass : Bytes) (m : Msg E) : Out (Msg E) := do
  let good ← k.meaningful
  if !good then return .empty
  else do
    let good ← m.meaningful
    if !good then return .empty
    else match firstPkesk m.packets with
      | none => return .empty
      | some t1 =>
        if !canEncrypt t1.pka then return .empty
        else match ← findDecryptKey cr t1.keyid none k.packets with
          | none => return .empty
          | some t => do
            let pri ← t.decryptSecretKeys cr pass
            if pri = [] then return .empty
            else do
              let o ← unwrapSessionKey t1 pri t.key.mpi
              match ← parseSessionKey o with
              | none => return .empty
              | some (sym, key) => decryptData cr z readE depth sym m key

end OpenPGP
