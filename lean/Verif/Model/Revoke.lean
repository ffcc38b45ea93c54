import Verif.Model.Sign

/-!
# `src/revoke.cpp`

`Revoke::check` is in `Model/Key.lean`, `RevocationCertificate::meaningful` in `Model/Verify.lean` (`revocationPacket`). The default
build is modelled (no `GPG_COMPATIBLE`). The armor headers of keys are not part of `KeyObj`. Null pointers among the packet arguments
are not modelled.
-/
namespace OpenPGP
variable {E : Type}

/-- `Revoke::Args` (revoke.h:51-78). -/
structure RevokeArgs (E : Type) where
  signer : KeyObj E
  pass : Bytes
  target : KeyObj E
  code : UInt8
  reason : Bytes
  version : UInt8
  hash : UInt8

/-- The keys of `Revoke::NAME` (Sub29.h:41-58). -/
def reasonNamed (c : UInt8) : Bool := decide (c ≤ 3) || c == 32 || decide (100 ≤ c ∧ c ≤ 110)

/-- `Revoke::Args::valid` (revoke.h:80-108). -/
def RevokeArgs.valid (a : RevokeArgs E) : Out Bool :=
  if a.signer.kind ≠ .sec then .ok false
  else do
    let good ← a.signer.meaningful
    if !good then return false
    else do
      let good ← a.target.meaningful
      if !good then return false
      else if !reasonNamed a.code then return false
      else if a.version ≠ 3 ∧ a.version ≠ 4 then return false
      else return hashNamed a.hash

/-- `find_signing_key` with the secret packet behind the cast (revoke.cpp:96, 130, 201). -/
def signerPacket (k : KeyObj E) : Out (Option (Body E × Tag5)) := do
  match ← k.findSigningKey with
  | none => return none
  | some p => match p.body.secretPart with
    | none => .ub
    | some t => return some (p.body, t)

/-- `Revoke::sig` (revoke.cpp:47-88). -/
def revokeSig (cr : Crypto) (rawE : E → Bytes) (draws : List Nat) (t : Tag5) (pass : Bytes) (target : Body E) (sig : Tag2 E) :
    Out (Option (Tag2 E)) :=
  if sig.type ≠ 0x20 ∧ sig.type ≠ 0x28 then .ok none
  else do
    let digest ← (if sig.type = 0x20 then digestOf cr sig (sign20Input rawE target sig) else digestOf cr sig (sign28Input rawE target sig))
    finishSig cr draws t pass sig digest

/-- `Revoke::key_sig` (revoke.cpp:91-121). What is revoked is the signing key itself. -/
def revokeKeySig (cr : Crypto) (rawE : E → Bytes) (a : RevokeArgs E) (now : Nat) (draws : List Nat) : Out (Option (Tag2 E)) := do
  let v ← a.valid
  if !v then return none
  else match ← signerPacket a.signer with
    | none => return none
    | some (b, t) => do
      let kid ← t.key.keyid cr
      let sig : Tag2 E := createSig a.version 0x20 t.key.pka a.hash kid now
      revokeSig cr rawE draws t a.pass b { sig with hashed := sig.hashed ++ [⟨false, .reason a.code a.reason⟩] }

/-- `std::string::find(keyid) != npos` on the key ID of a packet. -/
def keyidContains (cr : Crypto) (id : Bytes) (k : KeyPkt) : Out Bool := do
  let kid ← k.keyid cr
  return containsBytes id kid

/-- The search for the secret subkey (revoke.cpp:137-147). -/
def findSecretSubkey (cr : Crypto) (id : Bytes) : List (Pkt E) → Out (Option (Body E))
  | [] => .ok none
  | p :: ps =>
    match p.body with
    | .secretSubkey t => do
      if ← keyidContains cr id t.key then return some p.body else findSecretSubkey cr id ps
    | _ => findSecretSubkey cr id ps

/-- `Revoke::subkey_sig` (revoke.cpp:123-161). -/
def revokeSubkeySig (cr : Crypto) (rawE : E → Bytes) (a : RevokeArgs E) (now : Nat) (draws : List Nat) (id : Bytes) :
    Out (Option (Tag2 E)) := do
  let v ← a.valid
  if !v then return none
  else match ← signerPacket a.signer with
    | none => return none
    | some (_, t) => match ← findSecretSubkey cr id a.target.packets with
      | none => return none
      | some b => do
        let kid ← t.key.keyid cr
        revokeSig cr rawE draws t a.pass b (createSig a.version 0x28 t.key.pka a.hash kid now)

/-- `Revoke::uid_sig` (revoke.cpp:164-246): the second one with the first one in it. -/
def revokeUidSig (cr : Crypto) (rawE : E → Bytes) (a : RevokeArgs E) (now : Nat) (draws : List Nat) (id : Bytes) :
    Out (Option (Tag2 E)) := do
  let v ← a.valid
  if !v then return none
  else match ← signerPacket a.signer with
    | none => return none
    | some (_, t) => match findUser id a.target.packets with
      | none => return none
      | some (_, user, _) => do
        let kid ← t.key.keyid cr
        let sig0 : Tag2 E := createSig a.version 0x30 t.key.pka a.hash kid now
        let sig := { sig0 with hashed := sig0.hashed ++ [⟨false, .reason a.code a.reason⟩] }
        let digest ← digestOf cr sig (signUserInput rawE 0x30 t.key user sig)
        finishSig cr draws t a.pass sig digest

/-- `RevocationCertificate()` (RevocationCertificate.cpp:5-9). -/
def noCert : PgpObj (Pkt E) := { PgpObj.fresh with type := 2 }

/-- The certificate around a signature (revoke.cpp:250-261, 264-275, 278-289). -/
def certOf : Option (Tag2 E) → PgpObj (Pkt E)
  | none => noCert
  | some s => ⟨true, 2, [(ascii "Version", ascii "cc"), (ascii "Comment", ascii "Revocation Certificate")], [⟨.new, false, .sig s⟩]⟩

/-- `Revoke::key_cert` (revoke.cpp:249-261). -/
def revokeKeyCert (cr : Crypto) (rawE : E → Bytes) (a : RevokeArgs E) (now : Nat) (draws : List Nat) : Out (PgpObj (Pkt E)) := do
  let s ← revokeKeySig cr rawE a now draws
  return certOf s

/-- `Revoke::subkey_cert` (revoke.cpp:263-275). -/
def revokeSubkeyCert (cr : Crypto) (rawE : E → Bytes) (a : RevokeArgs E) (now : Nat) (draws : List Nat) (id : Bytes) :
    Out (PgpObj (Pkt E)) := do
  let s ← revokeSubkeySig cr rawE a now draws id
  return certOf s

/-- `Revoke::uid_cert` (revoke.cpp:277-289). -/
def revokeUidCert (cr : Crypto) (rawE : E → Bytes) (a : RevokeArgs E) (now : Nat) (draws : List Nat) (id : Bytes) :
    Out (PgpObj (Pkt E)) := do
  let s ← revokeUidSig cr rawE a now draws id
  return certOf s

/-- The first packet of the new key (revoke.cpp:322-327, 417-422, 465-470, 537-542): nothing for other packets than primary keys. -/
def publicPrimary (p : Pkt E) : Out (List (Pkt E)) :=
  match p.body with
  | .publicKey _ => .ok [p]
  | .secretKey t => do let k ← t.getPublic; return [⟨.new, false, .publicKey k⟩]
  | _ => .ok []

/-- A later packet of the new key (revoke.cpp:430-435, 482-490): secret subkeys are replaced, others cloned. -/
def publicLater (p : Pkt E) : Out (Pkt E) :=
  match p.body with
  | .secretSubkey t => do let k ← t.getPublic; return ⟨.new, false, .publicSubkey k⟩
  | _ => .ok p

/-- The loop over the later packets in `Revoke::key` (revoke.cpp:428-438). -/
def publicLaters : List (Pkt E) → Out (List (Pkt E))
  | [] => .ok []
  | p :: ps => do
    let q ← publicLater p
    let qs ← publicLaters ps
    return q :: qs

def sigPkt (s : Tag2 E) : Pkt E := ⟨.new, false, .sig s⟩

/-- `Revoke::key` (revoke.cpp:405-449). -/
def revokeKey (cr : Crypto) (rawE : E → Bytes) (a : RevokeArgs E) (now : Nat) (draws : List Nat) : Out (KeyObj E) := do
  let v ← a.valid
  if !v then return noPublicKey
  else match ← revokeKeySig cr rawE a now draws with
    | none => return noPublicKey
    | some s => match a.target.packets with
      | [] => .ub
      | p :: ps => do
        let h ← publicPrimary p
        let r ← publicLaters ps
        return ⟨.pub, h ++ sigPkt s :: r⟩

/-- The loop of `Revoke::subkey` (revoke.cpp:472-509): both loops of the code, since the first one stops at the first subkey. The packet
behind a matching subkey is cloned without being looked at; there need not be one. -/
def subkeyInsert (cr : Crypto) (id : Bytes) (s : Tag2 E) : List (Pkt E) → Out (List (Pkt E))
  | [] => .ok []
  | p :: ps =>
    match p.body with
    | .secretSubkey t => do
      let k ← t.getPublic
      let q : Pkt E := ⟨.new, false, .publicSubkey k⟩
      if ← keyidContains cr id t.key then
        match ps with
        | [] => .ub
        | x :: ps => do
          let r ← subkeyInsert cr id s ps
          return q :: x :: sigPkt s :: r
      else do
        let r ← subkeyInsert cr id s ps
        return q :: r
    | .publicSubkey k => do
      if ← keyidContains cr id k then
        match ps with
        | [] => .ub
        | x :: ps => do
          let r ← subkeyInsert cr id s ps
          return p :: x :: sigPkt s :: r
      else do
        let r ← subkeyInsert cr id s ps
        return p :: r
    | _ => do
      let r ← subkeyInsert cr id s ps
      return p :: r

/-- `Revoke::subkey` (revoke.cpp:451-514). -/
def revokeSubkey (cr : Crypto) (rawE : E → Bytes) (a : RevokeArgs E) (now : Nat) (draws : List Nat) (id : Bytes) : Out (KeyObj E) := do
  let v ← a.valid
  if !v then return noPublicKey
  else match ← revokeSubkeySig cr rawE a now draws id with
    | none => return noPublicKey
    | some s => match a.target.packets with
      | [] => .ub
      | p :: ps => do
        let h ← publicPrimary p
        let r ← subkeyInsert cr id s ps
        return ⟨.pub, h ++ r⟩

/-- The loop of `Revoke::uid` (revoke.cpp:544-565). User IDs that do not match are not copied. -/
def uidInsert (id : Bytes) (s : Tag2 E) : List (Pkt E) → Out (List (Pkt E))
  | [] => .ok []
  | p :: ps =>
    match p.body with
    | .secretSubkey t => do
      let k ← t.getPublic
      let r ← uidInsert id s ps
      return ⟨.new, false, .publicSubkey k⟩ :: r
    | .userId u => do
      let r ← uidInsert id s ps
      if containsBytes id u then return p :: sigPkt s :: r else return r
    | _ => do
      let r ← uidInsert id s ps
      return p :: r

/-- `Revoke::uid` (revoke.cpp:516-571). -/
def revokeUid (cr : Crypto) (rawE : E → Bytes) (a : RevokeArgs E) (now : Nat) (draws : List Nat) (id : Bytes) : Out (KeyObj E) := do
  let v ← a.valid
  if !v then return noPublicKey
  else do
    let x ← a.signer.keyid cr
    let y ← a.target.keyid cr
    if x ≠ y then return noPublicKey
    else match ← revokeUidSig cr rawE a now draws id with
      | none => return noPublicKey
      | some s => match a.target.packets with
        | [] => .ub
        | p :: ps => do
          let h ← publicPrimary p
          let r ← uidInsert id s ps
          return ⟨.pub, h ++ r⟩

def isUserPkt (p : Pkt E) : Bool := p.body.tag == 13 || p.body.tag == 17
def isSubkeyPkt (p : Pkt E) : Bool := p.body.tag == 7 || p.body.tag == 14

/-- The search for the revoked user (revoke.cpp:337-363): what was copied and the packets behind `i`; `none` for the result
`PublicKey()`. The packets in front of the first user are passed over. Nothing advances `i` for a user whose revocation this is not. -/
def certUser (cr : Crypto) (rawE : E → Bytes) (key : KeyPkt) (s : Tag2 E) (ps : List (Pkt E)) : Out (Option (List (Pkt E) × List (Pkt E))) :=
  match ps.dropWhile (fun p => !isUserPkt p) with
  | [] => .ok (some ([], []))
  | u :: rest => do
    let digest ← digestOf cr s (signUserInput rawE 0x30 key u.body s)
    match ← verifyWith digest key s with
    | .yes => return some ([u, sigPkt s], rest.drop 1)
    | .error => return none
    | .no => .diverge

/-- The end of `Revoke::with_cert` (revoke.cpp:365-397): the packets behind `i`. -/
def certRest (s : Tag2 E) (ps : List (Pkt E)) : Out (List (Pkt E)) :=
  match ps.dropWhile (fun p => !isSubkeyPkt p) with
  | [] => .ub
  | k :: rest => do
    let q ← publicLater k
    let before := ps.takeWhile (fun p => !isSubkeyPkt p)
    if s.type = 0x28 then
      match rest with
      | [] => .ub
      | x :: rest => return before ++ q :: x :: sigPkt s :: rest
    else return before ++ q :: rest

/-- `Revoke::with_cert` (revoke.cpp:293-398). -/
def revokeWithCert (cr : Crypto) (rawE : E → Bytes) (k : KeyObj E) (rev : PgpObj (Pkt E)) : Out (KeyObj E) := do
  let good ← k.meaningful
  if !good then return noPublicKey
  else match revocationPacket rev with
    | none => return noPublicKey
    | some s => match ← verifyRevoke cr rawE k rev with
      | .no => return noPublicKey
      | .error => return noPublicKey
      | .yes => match k.packets with
        | [] => .ub
        | p :: ps => do
          let h ← publicPrimary p
          let h := if s.type = 0x20 then h ++ [sigPkt s] else h
          if s.type = 0x30 then
            match p.body.keyPart with
            | none => .ub
            | some key => do
              match ← certUser cr rawE key s ps with
              | none => return noPublicKey
              | some (done, rest) => do
                let r ← certRest s rest
                return ⟨.pub, h ++ done ++ r⟩
          else do
            let r ← certRest s ps
            return ⟨.pub, h ++ r⟩

end OpenPGP
