import Verif.Model.CryptPka
import Verif.Model.Sign

/-!
# `src/encrypt.cpp` with a signing key

`Encrypt::data`, `Encrypt::sym` and `Encrypt::pka` with `Args::signer`. A null signer is `none`; `encryptDataS_none` and its companions
(`Props/C57.lean`) show that the functions are then those of `Model/Crypt.lean` and `Model/CryptPka.lean`.
-/
namespace OpenPGP
variable {E : Type}

/-- What the functions take from the outside: primitives, compression, the coding of embedded signatures, the clock and everything random.
`depth` bounds the nesting of compressed packets. -/
structure World (E : Type) where
  cr : Crypto
  z : Zip
  rawE : E → Bytes
  readE : Bytes → Out E
  depth : Nat
  now : Nat
  nonces : List Nat
  salt : Bytes
  rand : Bytes
  sessionKey : Bytes
  padding : Bytes
  ephemeral : Nat

/-- The octets to encrypt (encrypt.cpp:14-47); `none` is a null result. -/
def plainOctets (w : World E) (a : EncArgs) (signer : Option (KeyObj E × Bytes)) : Out (Option Bytes) :=
  match signer with
  | none => some <$> a.plain (E := E) w.z w.rawE
  | some (k, pass) => do
    let m ← signBinary w.cr w.z w.rawE w.readE w.depth ⟨k, pass, 4, a.hash⟩ w.now w.nonces a.filename a.data a.comp
    let good ← m.meaningful
    if !good then return none
    else some <$> m.raw w.z w.rawE

/-- `Encrypt::data` (encrypt.cpp:6-73). -/
def encryptDataS (w : World E) (a : EncArgs) (signer : Option (KeyObj E × Bytes)) (key : Bytes) : Out (Option (Pkt E)) :=
  if !a.valid then .ok none
  else do
    match ← plainOctets w a signer with
    | none => return none
    | some plain => do
      let bs ← mapAt (blockLen a.sym)
      if w.rand.length ≠ bs then .diverge
      else do
        let p ← encPrefix w.rand
        let e ← encPacket w.cr w.rawE a.sym a.mdc plain p key
        return some e

/-- `Encrypt::sym` (encrypt.cpp:160-197). -/
def encryptSymS (w : World E) (a : EncArgs) (signer : Option (KeyObj E × Bytes)) (pass : Bytes) (keyHash : UInt8) : Out (Msg E) :=
  if !a.valid then .ok .empty
  else if w.salt.length ≠ 8 then .diverge
  else do
    let t ← Tag3.setS2K ⟨4, a.sym, none, none⟩ (some (.iterated keyHash w.salt 96))
    let sk ← t.getSessionKey w.cr pass
    let key ← substr sk 1 (subSz sk.length 1)
    match ← encryptDataS w a signer key with
    | none => return .empty
    | some e => return ⟨none, [⟨.new, false, .skesk t⟩, e]⟩

/-- `Encrypt::pka` (encrypt.cpp:76-153). -/
def encryptPkaS (w : World E) (a : EncArgs) (signer : Option (KeyObj E × Bytes)) (k : KeyObj E) : Out (Msg E) :=
  if !a.valid then .ok .empty
  else do
    let good ← k.meaningful
    if !good then return .empty
    else match ← k.revokeCheck with
      | .yes => return .empty
      | .error => return .empty
      | .no =>
        match findEncryptKey none k.packets with
        | none => return .empty
        | some kp => do
          let kid ← kp.keyid w.cr
          let n ← mapAt (keyLen a.sym)
          if w.sessionKey.length ≠ n then .diverge
          else do
            let c ← wrapSessionKey kp.pka kp.mpi w.padding w.ephemeral a.sym w.sessionKey
            match ← encryptDataS w a signer w.sessionKey with
            | none => return .empty
            | some e => return ⟨none, [⟨.new, false, .pkesk ⟨3, kid, kp.pka, c⟩⟩, e]⟩

end OpenPGP
