import Verif.Model.Revoke

/-!
# Subkey revocations with `GPG_COMPATIBLE`

With this build option a revocation is put directly behind the subkey packet, not behind its first signature. The rest of the two functions is that of `revokeSubkey` and `revokeWithCert`;
the keys are those of the build without the option (C72 has the others).
-/
namespace OpenPGP
variable {E : Type}

/-- The loop of `Revoke::subkey` (revoke.cpp:472-509, without lines 494-495). -/
def subkeyInsertGpg (cr : Crypto) (id : Bytes) (s : Tag2 E) : List (Pkt E) → Out (List (Pkt E))
  | [] => .ok []
  | p :: ps =>
    match p.body with
    | .secretSubkey t => do
      let k ← t.getPublic
      let q : Pkt E := ⟨.new, false, .publicSubkey k⟩
      let here ← keyidContains cr id t.key
      let r ← subkeyInsertGpg cr id s ps
      return if here then q :: sigPkt s :: r else q :: r
    | .publicSubkey k => do
      let here ← keyidContains cr id k
      let r ← subkeyInsertGpg cr id s ps
      return if here then p :: sigPkt s :: r else p :: r
    | _ => do
      let r ← subkeyInsertGpg cr id s ps
      return p :: r

/-- `Revoke::subkey` (revoke.cpp:451-514). -/
def revokeSubkeyGpg (cr : Crypto) (rawE : E → Bytes) (a : RevokeArgs E) (now : Nat) (draws : List Nat) (id : Bytes) : Out (KeyObj E) := do
  let v ← a.valid
  if !v then return noPublicKey
  else match ← revokeSubkeySig cr rawE a now draws id with
    | none => return noPublicKey
    | some s => match a.target.packets with
      | [] => .ub
      | p :: ps => do
        let h ← publicPrimary p
        let r ← subkeyInsertGpg cr id s ps
        return ⟨.pub, h ++ r⟩

/-- The end of `Revoke::with_cert` (revoke.cpp:365-397, without lines 384-385). -/
def certRestGpg (s : Tag2 E) (ps : List (Pkt E)) : Out (List (Pkt E)) :=
  match ps.dropWhile (fun p => !isSubkeyPkt p) with
  | [] => .ub
  | k :: rest => do
    let q ← publicLater k
    let before := ps.takeWhile (fun p => !isSubkeyPkt p)
    if s.type = 0x28 then return before ++ q :: sigPkt s :: rest else return before ++ q :: rest

/-- `Revoke::with_cert` (revoke.cpp:293-398). -/
def revokeWithCertGpg (cr : Crypto) (rawE : E → Bytes) (k : KeyObj E) (rev : PgpObj (Pkt E)) : Out (KeyObj E) := do
  let good ← k.meaningful
  if !good then return noPublicKey
  else match revocationPacket rev with
    | none => return noPublicKey
    | some s => match ← verifyRevoke cr rawE k rev with
      | .no => return noPublicKey
      | .error => return noPublicKey
      | .yes => match k.packets with
        | [] => .ub
        | p :: ps => do
          let h ← publicPrimary p
          let h := if s.type = 0x20 then h ++ [sigPkt s] else h
          if s.type = 0x30 then
            match p.body.keyPart with
            | none => .ub
            | some key => do
              match ← certUser cr rawE key s ps with
              | none => return noPublicKey
              | some (done, rest) => do
                let r ← certRestGpg s rest
                return ⟨.pub, h ++ done ++ r⟩
          else do
            let r ← certRestGpg s ps
            return ⟨.pub, h ++ r⟩

end OpenPGP
