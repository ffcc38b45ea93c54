import Verif.Model.Sigcalc
import Verif.Model.Cleartext
import Verif.Model.Crypt

/-!
# `src/verify.cpp`

A `static_pointer_cast` to the wrong class makes the accesses behind it undefined behaviour. Objects of class `Key` that are
verified against are `PublicKey` or `SecretKey` objects of the matching type (`KeyObj`).
-/
namespace OpenPGP

/-- The `int` returned: `true`, `false` or -1. -/
inductive Verdict where
  | yes | no | error
  deriving DecidableEq, Repr

/-- A `bool` converted to `int`. -/
def Verdict.ofBool (b : Bool) : Verdict := if b then .yes else .no

/-- `Verify::with_pka` on values (verify.cpp:6-19). -/
def verifyPka (digest : Bytes) (hash pka : UInt8) (signer sig : List Nat) : Out Verdict :=
  if pka = 1 ∨ pka = 3 then do
    let n ← vecAt signer 0
    let em ← emsa hash digest (bitsize n / 8)
    let b ← rsaVerify em sig signer
    return .ofBool b
  else if pka = 17 then do
    let b ← dsaVerify digest sig signer
    return .ofBool b
  else return .error

variable {E : Type}

/-- `Verify::with_pka` on packets (verify.cpp:21-23): algorithms and values of the signature, values of the key. -/
def verifyWith (digest : Bytes) (signer : KeyPkt) (sig : Tag2 E) : Out Verdict :=
  verifyPka digest sig.hash sig.pka signer.mpi sig.mpi

/-- The key fields of the packet `find_signing_key` returns. -/
def signingFields (k : KeyObj E) : Out (Option KeyPkt) := do
  match ← k.findSigningKey with
  | none => return none
  | some p => match p.body.keyPart with
    | none => .ub
    | some kp => return some kp

/-- `DetachedSignature::meaningful` (DetachedSignature.cpp:45-67) and the cast of the packet: the signature packet of a meaningful
object. -/
def detachedPacket (sig : PgpObj (Pkt E)) : Out (Option (Tag2 E)) :=
  if sig.type ≠ 6 then .ok none
  else match sig.packets with
    | [p] => match p.body with
      | .sig s => .ok (some s)
      | _ => .ub
    | _ => .ok none

/-- What the verifications of a document share (verify.cpp:25-66, 208-254, 409-450): `input` is what is hashed, `mismatch` the answer
for wrong left 16 bits. -/
def verifyDocument (cr : Crypto) (k : KeyObj E) (sig : PgpObj (Pkt E)) (mismatch : Verdict) (input : Tag2 E → Out Bytes) :
    Out Verdict := do
  let good ← k.meaningful
  if !good then return .error
  else match ← detachedPacket sig with
    | none => return .error
    | some s => do
      let kid ← s.getKeyid
      if kid = [] then return .error
      else do
        let own ← k.keyid cr
        if own ≠ kid then return .no
        else do
          let digest ← digestOf cr s (input s)
          let l ← substr digest 0 2
          if l ≠ s.left16 then return mismatch
          else match ← signingFields k with
            | none => return .error
            | some kp => verifyWith digest kp s

/-- `Verify::detached_signature` (verify.cpp:25-66). -/
def verifyDetached (cr : Crypto) (rawE : E → Bytes) (k : KeyObj E) (data : Bytes) (sig : PgpObj (Pkt E)) : Out Verdict :=
  verifyDocument cr k sig .no (sign00Input rawE data)

/-- `Verify::cleartext_signature` (verify.cpp:208-254). -/
def verifyCleartext (cr : Crypto) (rawE : E → Bytes) (k : KeyObj E) (m : Cleartext (Pkt E)) : Out Verdict :=
  verifyDocument cr k m.sig .error (sign01Input rawE (dataToText m.message))

/-- `Verify::timestamp` (verify.cpp:409-450). -/
def verifyTimestamp (cr : Crypto) (rawE : E → Bytes) (k : KeyObj E) (sig : PgpObj (Pkt E)) : Out Verdict :=
  verifyDocument cr k sig .no (sign40Input rawE)

/-- The signed octets of a one-pass signed message (verify.cpp:147-157). -/
def signedOctets (rawE : E → Bytes) : List (Pkt E) → Out Bytes
  | [] => .ok []
  | p :: ps => do
    let a ← match p.body with
      | .literal t => .ok t.literal
      | b => b.raw rawE
    let r ← signedOctets rawE ps
    return a ++ r

/-- The loop over the pairs of one-pass signature and signature (verify.cpp:143-176). `OPSP` counts down from `n - 1` to 0, and `SP`
is `packets.size() - (OPSP + 1)` all along; `first` is the index of the first packet that is no one-pass signature. -/
def pairLoop (cr : Crypto) (rawE : E → Bytes) (kp : KeyPkt) (packets : List (Pkt E)) (first : Nat) : Nat → Out Verdict
  | 0 => .ok .no
  | n + 1 => do
    let p ← vecAt packets n
    match p.body with
    | .onePass o => do
      let kid ← kp.keyid cr
      if o.keyid = kid then do
        let data ← signedOctets rawE ((packets.take (packets.length - (n + 1))).drop first)
        let q ← vecAt packets (packets.length - (n + 1))
        match q.body with
        | .sig s => do
          let digest ← digestOf cr s (sign00Input rawE data s)
          match ← verifyWith digest kp s with
          | .error => return .error
          | .yes => return .yes
          | .no => pairLoop cr rawE kp packets first n
        | _ => .ub
      else pairLoop cr rawE kp packets first n
    | _ => .ub

/-- The signed-message part of `Verify::binary` (verify.cpp:90-187). -/
def verifySigned (cr : Crypto) (rawE : E → Bytes) (k : KeyObj E) (packets : List (Pkt E)) : Out Verdict :=
  if 2 < packets.length ∧ packets.head?.map (·.body.tag) = some 4 ∧ packets.getLast?.map (·.body.tag) = some 2 then do
    match ← signingFields k with
    | none => return .error
    | some kp =>
      let n := (packets.takeWhile fun p => p.body.tag == 4).length
      if n = packets.length then return .error
      else if packets.length - n < n - 1 then return .error
      else pairLoop cr rawE kp packets n n
  else return .error

/-- `Message::Message(data)` (Message.cpp:157-176). -/
def Msg.ofString (z : Zip) (readE : Bytes → Out E) (depth : Nat) (data : Bytes) : Out (Msg E) := do
  let o ← pgpRead (Pkt.parse readE) .fresh data
  let good ← messageMeaningful (o.packets.map (·.body.tag))
  if !good then .throw
  else match o.packets with
    | [⟨fmt, part, .compressed alg d⟩] => do
      let inner ← decompress z alg d
      Msg.readLoop z readE depth (some (fmt, part, alg)) inner
    | ps => .ok ⟨none, ps⟩

/-- `Verify::binary` (verify.cpp:69-205). `depth` bounds the nesting of compressed packets. -/
def verifyBinary (cr : Crypto) (z : Zip) (rawE : E → Bytes) (readE : Bytes → Out E) : (depth : Nat) → KeyObj E → Msg E → Out Verdict
  | 0, _, _ => .diverge
  | depth + 1, k, m => do
    let good ← k.meaningful
    if !good then return .error
    else do
      let good ← m.meaningful
      if !good then return .error
      else do
        let enc ← matchTags (m.packets.map (·.body.tag)) .encryptedMessage
        if enc then return .error
        else do
          let sgn ← matchTags (m.packets.map (·.body.tag)) .signedMessage
          if sgn then verifySigned cr rawE k m.packets
          else do
            let com ← matchTags (m.packets.map (·.body.tag)) .compressedMessage
            if com then
              match m.packets with
              | ⟨_, _, .compressed alg d⟩ :: _ => do
                let inner ← decompress z alg d
                let m' ← Msg.ofString z readE depth inner
                verifyBinary cr z rawE readE depth k m'
              | _ => .ub
            else do
              let lit ← matchTags (m.packets.map (·.body.tag)) .literalMessage
              if lit then return .yes else return .error

/-- `Verify::primary_key` on packets (verify.cpp:262-270). -/
def verifyCertification (cr : Crypto) (rawE : E → Bytes) (signer key : KeyPkt) (id : Body E) (sig : Tag2 E) : Out Verdict := do
  let a ← signer.keyid cr
  let b ← sig.getKeyid
  if a ≠ b then return .no
  else do
    let digest ← digestOf cr sig (signCertInput rawE sig.type key id sig)
    verifyWith digest signer sig

/-- The loop of `Verify::primary_key` on keys (verify.cpp:298-325): `key` and `id` are the variables `signee_key` and `signee_id`. Null
pointers are only looked at when the key ID matches, and then make `to_sign_cert` throw. -/
def certifiedLoop (cr : Crypto) (rawE : E → Bytes) (signer : KeyPkt) :
    (key : Option KeyPkt) → (id : Option (Body E)) → List (Body E) → Out Verdict
  | _, _, [] => .ok .no
  | key, id, b :: bs =>
    if b.tag = 5 ∨ b.tag = 6 then certifiedLoop cr rawE signer b.keyPart none bs
    else if b.tag = 13 ∨ b.tag = 17 then certifiedLoop cr rawE signer key (some b) bs
    else match b with
      | .sig s => do
        let rc ← (match key, id with
          | some k, some i => verifyCertification cr rawE signer k i s
          | _, _ => do
            let a ← signer.keyid cr
            let b ← s.getKeyid
            if a ≠ b then return .no else .throw)
        match rc with
        | .yes => return .yes
        | .error => return .error
        | .no => certifiedLoop cr rawE signer key id bs
      | _ => certifiedLoop cr rawE signer key id bs

/-- `Verify::primary_key` on keys (verify.cpp:272-328). -/
def verifyPrimaryKey (cr : Crypto) (rawE : E → Bytes) (signer signee : KeyObj E) : Out Verdict := do
  let good ← signer.meaningful
  if !good then return .error
  else do
    let good ← signee.meaningful
    if !good then return .error
    else do
      let own ← signer.keyid cr
      if own = [] then return .error
      else match ← signingFields signer with
        | none => return .error
        | some kp => certifiedLoop cr rawE kp none none (signee.packets.map (·.body))

/-- `RevocationCertificate::meaningful` (RevocationCertificate.cpp:51-73): the signature packet of a meaningful certificate. -/
def revocationPacket (rev : PgpObj (Pkt E)) : Option (Tag2 E) :=
  if rev.type ≠ 2 then none
  else match rev.packets with
    | [⟨_, _, .sig s⟩] => if s.type = 0x20 ∨ s.type = 0x28 ∨ s.type = 0x30 then some s else none
    | _ => none

/-- The loops over subkeys and users in `Verify::revoke` (verify.cpp:372-385, 388-402): the first item whose answer is not "no". -/
def firstVerdict {α : Type} (f : α → Out Verdict) : List α → Out Verdict
  | [] => .ok .no
  | x :: xs => do
    match ← f x with
    | .yes => return .yes
    | .error => return .error
    | .no => firstVerdict f xs

/-- `Verify::revoke` (verify.cpp:339-406). -/
def verifyRevoke (cr : Crypto) (rawE : E → Bytes) (k : KeyObj E) (rev : PgpObj (Pkt E)) : Out Verdict := do
  let good ← k.meaningful
  if !good then return .error
  else match revocationPacket rev with
    | none => return .error
    | some s => do
      let own ← k.keyid cr
      let kid ← s.getKeyid
      if own ≠ kid then return .no
      else match ← signingFields k with
        | none => return .error
        | some kp =>
          if s.type = 0x20 then
            match k.packets with
            | [] => .ub
            | p :: _ => match p.body.keyPart with
              | none => .ub
              | some pk => do
                let digest ← digestOf cr s (addtrailer rawE (overkey pk) s)
                verifyWith digest kp s
          else if s.type = 0x28 then
            firstVerdict (fun b => do
              let digest ← digestOf cr s (sign28Input rawE b s)
              verifyWith digest kp s) ((k.packets.map (·.body)).filter fun b => b.tag == 7 || b.tag == 14)
          else if s.type = 0x30 then
            firstVerdict (fun b => do
              let digest ← digestOf cr s (signUserInput rawE 0x30 kp b s)
              verifyWith digest kp s) ((k.packets.map (·.body)).filter fun b => b.tag == 13 || b.tag == 17)
          else return .error

end OpenPGP
