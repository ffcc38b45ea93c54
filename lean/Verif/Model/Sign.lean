import Verif.Model.Verify

/-!
# `src/sign.cpp`

The clock (`now()`) and the nonces of DSA are arguments. Null pointers among the packet arguments are not modelled (every
function returns null for them); a null result is `none`.
-/
namespace OpenPGP

/-- `Sign::with_pka` (sign.cpp:8-21). -/
def signPka (draws : List Nat) (digest : Bytes) (pka : UInt8) (pri pub : List Nat) (hash : UInt8) : Out (List Nat) :=
  if pka = 1 ∨ pka = 2 then do
    let n ← vecAt pub 0
    let em ← emsa hash digest (bitsize n / 8)
    let s ← rsaSign em pri pub
    return [s]
  else if pka = 17 then dsaSign draws digest pri pub
  else return []

variable {E : Type}

/-- `Sign::create_sig_packet` (sign.cpp:23-42). Time and key ID are put into subpackets, whatever the version. -/
def createSig (version type pka hash : UInt8) (keyid : Bytes) (now : Nat) : Tag2 E :=
  ⟨version, type, pka, hash, [], [], 0, [], [⟨false, .sigTime now⟩], [⟨false, .issuer keyid⟩]⟩

/-- `Sign::Args` (sign.h:59-74). -/
structure SignArgs (E : Type) where
  pri : KeyObj E
  pass : Bytes
  version : UInt8
  hash : UInt8

/-- The keys of `Hash::NAME` (Hashes.h:75-99). -/
def hashNamed (h : UInt8) : Bool := decide (1 ≤ h ∧ h ≤ 11) || decide (100 ≤ h ∧ h ≤ 110)

/-- The names of `Hash::NAME`. -/
def hashName (h : UInt8) : Bytes :=
  if h = 1 then ascii "MD5" else if h = 2 then ascii "SHA1" else if h = 3 then ascii "RIPEMD160" else if h = 8 then ascii "SHA256"
  else if h = 9 then ascii "SHA384" else if h = 10 then ascii "SHA512" else if h = 11 then ascii "SHA224"
  else if h < 100 then ascii "Reserved" else ascii "Private/Experimental algorithm"

/-- `Sign::Args::valid` (sign.h:76-94) with `SecretKey::meaningful` (Key.cpp:644-651), which asks for the type. -/
def SignArgs.valid (a : SignArgs E) : Out Bool :=
  if a.pri.kind ≠ .sec then .ok false
  else do
    let good ← a.pri.meaningful
    if !good then return false
    else if a.version ≠ 3 ∧ a.version ≠ 4 then return false
    else return hashNamed a.hash

/-- The secret key packet `find_signing_key` returns. -/
def signerOf (k : KeyObj E) : Out (Option Tag5) := do
  match ← k.findSigningKey with
  | none => return none
  | some p => match p.body.secretPart with
    | none => .ub
    | some t => return some t

/-- `set_left16`, `with_pka`, `set_mpi`: the common end of all signing functions (sign.cpp:69-76 and others). `none` when there are no
values. -/
def finishSig (cr : Crypto) (draws : List Nat) (t : Tag5) (pass : Bytes) (sig : Tag2 E) (digest : Bytes) : Out (Option (Tag2 E)) := do
  let l ← substr digest 0 2
  let pri ← t.decryptSecretKeys cr pass
  let vals ← signPka draws digest t.key.pka pri t.key.mpi sig.hash
  if vals = [] then return none
  else return some { sig with left16 := l, mpi := vals }

/-- A signature of the given type by the signing key over what `input` says. -/
def makeSig (cr : Crypto) (a : SignArgs E) (draws : List Nat) (t : Tag5) (sig : Tag2 E) (input : Tag2 E → Out Bytes) :
    Out (Option (Tag2 E)) := do
  let digest ← digestOf cr sig (input sig)
  finishSig cr draws t a.pass sig digest

/-- The object around one signature packet (sign.cpp:78-80): `DetachedSignature()`, `set_keys`, `set_packets`. -/
def detachedOf (s : Tag2 E) : PgpObj (Pkt E) := ⟨true, 6, [(ascii "Version", ascii "cc")], [⟨.new, false, .sig s⟩]⟩

/-- `DetachedSignature()`. -/
def noDetached : PgpObj (Pkt E) := { PgpObj.fresh with type := 6 }

/-- `Sign::detached_signature` (sign.cpp:44-83). -/
def signDetached (cr : Crypto) (rawE : E → Bytes) (a : SignArgs E) (now : Nat) (draws : List Nat) (data : Bytes) :
    Out (PgpObj (Pkt E)) := do
  let v ← a.valid
  if !v then return noDetached
  else match ← signerOf a.pri with
    | none => return noDetached
    | some t => match ← a.pri.revokeCheck with
      | .yes => return noDetached
      | .error => return noDetached
      | .no => do
        let kid ← t.key.keyid cr
        match ← makeSig cr a draws t (createSig a.version 0 t.key.pka a.hash kid now) (sign00Input rawE data) with
        | none => return noDetached
        | some s => return detachedOf s

/-- The compressed form of a signed message (sign.cpp:130-137). -/
def compressSigned (z : Zip) (rawE : E → Bytes) (readE : Bytes → Out E) (depth : Nat) (comp : UInt8) (m : Msg E) : Out (Msg E) :=
  if comp = 0 then .ok m
  else do
    let raw ← m.raw z rawE
    let d ← compress z comp raw
    let w ← Pkt.write rawE ⟨.new, false, .compressed comp d⟩
    Msg.ofString z readE depth w

/-- `Sign::binary` (sign.cpp:86-140); the armor header of the message is not modelled. `Tag4::set_keyid` throws unless the ID has
eight octets. `depth` as in `Msg.readLoop`. -/
def signBinary (cr : Crypto) (z : Zip) (rawE : E → Bytes) (readE : Bytes → Out E) (depth : Nat) (a : SignArgs E) (now : Nat)
    (draws : List Nat) (filename data : Bytes) (comp : UInt8) : Out (Msg E) := do
  let v ← a.valid
  if !v then return .empty
  else match ← signerOf a.pri with
    | none => return .empty
    | some t => do
      let kid ← t.key.keyid cr
      let kid ← Tag4.checkKeyid kid
      match ← makeSig cr a draws t (createSig a.version 0 t.key.pka a.hash kid now) (sign00Input rawE data) with
      | none => return .empty
      | some s => compressSigned z rawE readE depth comp ⟨none, [⟨.new, false, .onePass ⟨3, 0, a.hash, t.key.pka, kid, 1⟩⟩,
          ⟨.new, false, .literal ⟨0x62, filename, now, data⟩⟩, ⟨.new, false, .sig s⟩]⟩

/-- `Sign::cleartext_signature` (sign.cpp:143-179). -/
def signCleartext (cr : Crypto) (rawE : E → Bytes) (a : SignArgs E) (now : Nat) (draws : List Nat) (text : Bytes) :
    Out (Cleartext (Pkt E)) := do
  let v ← a.valid
  if !v then return .fresh
  else match ← signerOf a.pri with
    | none => return .fresh
    | some t => do
      let kid ← t.key.keyid cr
      match ← makeSig cr a draws t (createSig a.version 1 t.key.pka a.hash kid now) (sign01Input rawE (dataToText text)) with
      | none => return .fresh
      | some s => return ⟨[(ascii "Hash", hashName a.hash)], text, detachedOf s⟩

/-- `Sign::primary_key` on packets (sign.cpp:187-228). -/
def signCertification (cr : Crypto) (rawE : E → Bytes) (draws : List Nat) (t : Tag5) (pass : Bytes) (key id : Body E) (sig : Tag2 E) :
    Out (Option (Tag2 E)) :=
  if key.tag ≠ 5 ∧ key.tag ≠ 6 then .ok none
  else if !isCertification sig.type then .ok none
  else match key.keyPart with
    | none => .ub
    | some k => do
      let digest ← digestOf cr sig (signCertInput rawE sig.type k id sig)
      finishSig cr draws t pass sig digest

/-- `std::string::find(user) != npos`. -/
def containsBytes (user : Bytes) : Bytes → Bool
  | [] => user.isEmpty
  | c :: s => user.isPrefixOf (c :: s) || containsBytes user s

/-- The search for the user ID (sign.cpp:271-294): the packets up to and including it, the user ID, and the packets behind. -/
def findUser (user : Bytes) : List (Pkt E) → Option (List (Pkt E) × Body E × List (Pkt E))
  | [] => none
  | p :: ps =>
    match p.body with
    | .userId u =>
      if containsBytes user u then some ([p], p.body, ps)
      else (findUser user ps).map fun r => (p :: r.1, r.2)
    | _ => (findUser user ps).map fun r => (p :: r.1, r.2)

/-- The outcome of looking for an earlier certification. -/
inductive Earlier (α : Type) where
  | failed
  | already
  | none (sigs rest : List α)
  deriving DecidableEq, Repr

/-- The loop over the signatures behind the user ID (sign.cpp:301-314). -/
def earlierCerts (cr : Crypto) (rawE : E → Bytes) (signer key : KeyPkt) (id : Body E) : List (Pkt E) → Out (Earlier (Pkt E))
  | [] => .ok (.none [] [])
  | p :: ps =>
    match p.body with
    | .sig s => do
      match ← verifyCertification cr rawE signer key id s with
      | .error => return .failed
      | .yes => return .already
      | .no => do
        match ← earlierCerts cr rawE signer key id ps with
        | .none sigs rest => return .none (p :: sigs) rest
        | r => return r
    | _ => .ok (.none [] (p :: ps))

/-- `PublicKey()` (Key.cpp:532-536). -/
def noPublicKey : KeyObj E := ⟨.pub, []⟩

/-- `Sign::primary_key` on keys (sign.cpp:230-342). -/
def signPrimaryKey (cr : Crypto) (rawE : E → Bytes) (a : SignArgs E) (now : Nat) (draws : List Nat) (signee : KeyObj E) (user : Bytes)
    (cert : UInt8) : Out (KeyObj E) := do
  let v ← a.valid
  if !v then return noPublicKey
  else match ← a.pri.revokeCheck with
    | .yes => return noPublicKey
    | .error => return noPublicKey
    | .no => do
      let good ← (if signee.kind ≠ .pub then .ok false else signee.meaningful)
      if !good then return noPublicKey
      else match ← signee.revokeCheck with
        | .yes => return noPublicKey
        | .error => return noPublicKey
        | .no =>
          if !isCertification cert then return noPublicKey
          else match ← signerOf a.pri with
            | none => return noPublicKey
            | some t => match signee.packets with
              | [] => .ub
              | p0 :: ps => match p0.body.keyPart with
                | none => .ub
                | some key => match findUser user ps with
                  | none => return noPublicKey
                  | some (before, id, behind) => do
                    match ← earlierCerts cr rawE t.key key id behind with
                    | .failed => return noPublicKey
                    | .already => return signee
                    | .none sigs rest => do
                      let kid ← t.key.keyid cr
                      match ← signCertification cr rawE draws t a.pass p0.body id (createSig a.version cert t.key.pka a.hash kid now) with
                      | none => return noPublicKey
                      | some s => return ⟨.pub, p0 :: before ++ sigs ++ ⟨.new, false, .sig s⟩ :: rest⟩

/-- `Sign::subkey_binding` (sign.cpp:345-371) for a primary key packet and a subkey packet. -/
def signSubkeyBinding (cr : Crypto) (rawE : E → Bytes) (draws : List Nat) (primary : Tag5) (pass : Bytes) (sub : Tag5) (sig : Tag2 E) :
    Out (Option (Tag2 E)) := do
  let digest ← digestOf cr sig (signBindingInput rawE primary.key sub.key sig)
  finishSig cr draws primary pass sig digest

/-- `Sign::primary_key_binding` (sign.cpp:374-433). The search for a public subkey goes through the packets of the secret key. -/
def signPrimaryKeyBinding (cr : Crypto) (rawE : E → Bytes) (a : SignArgs E) (now : Nat) (draws : List Nat) (signee : KeyObj E) :
    Out (Option (Tag2 E)) := do
  let v ← a.valid
  if !v then return none
  else match ← signerOf a.pri with
    | none => return none
    | some t => match signee.packets.findSome? fun p => match p.body with | .publicKey k => some k | _ => none with
      | none => return none
      | some k =>
        if a.pri.packets.any fun p => p.body.tag == 14 then do
          let kid ← t.key.keyid cr
          makeSig cr a draws t (createSig a.version 0x19 t.key.pka a.hash kid now) (signBindingInput rawE k t.key)
        else return none

/-- `Sign::timestamp` (sign.cpp:435-471). -/
def signTimestamp (cr : Crypto) (rawE : E → Bytes) (a : SignArgs E) (now : Nat) (draws : List Nat) (time : Nat) :
    Out (PgpObj (Pkt E)) := do
  let v ← a.valid
  if !v then return noDetached
  else match ← signerOf a.pri with
    | none => return noDetached
    | some t => do
      let kid ← t.key.keyid cr
      let sig := createSig a.version 0x40 t.key.pka a.hash kid now
      match ← makeSig cr a draws t { sig with hashed := [⟨false, .sigTime time⟩] } (sign40Input rawE) with
      | none => return noDetached
      | some s => return detachedOf s

end OpenPGP
