import Verif.Model.Keygen
import Verif.Model.Revoke

/-!
# `KeyGen::fill_key_sigs`

The signing functions get the signature packet by reference and change it: the two octets of the hash are set before, the values after signing. A null result is not looked at
by `fill_key_sigs`. The nonces of DSA are given for each packet by its position. The packets are copies, so nothing changes when the function returns false.
-/
namespace OpenPGP
variable {E : Type}

/-- What the signing functions leave in the packet: `set_left16`, `with_pka`, and `set_mpi` if there are values (sign.cpp:218-225, 363-370, revoke.cpp:80-86, 185-192). -/
def refinish (cr : Crypto) (draws : List Nat) (t : Tag5) (pass : Bytes) (sig : Tag2 E) (digest : Bytes) : Out (Tag2 E) := do
  let l ← substr digest 0 2
  let pri ← t.decryptSecretKeys cr pass
  let vals ← signPka draws digest t.key.pka pri t.key.mpi sig.hash
  return { sig with left16 := l, mpi := if vals = [] then sig.mpi else vals }

/-- One signature that names the primary key (keygen.cpp:34-67); `none` is `return false`. A certification or its revocation without a user packet in front of it stays as it is
(sign.cpp:203-206, revoke.cpp:169-172). -/
def fillSig (cr : Crypto) (rawE : E → Bytes) (draws : List Nat) (pass : Bytes) (body : Body E) (primary : Tag5) (key user : Option (Body E)) (s : Tag2 E) : Out (Option (Tag2 E)) :=
  if isCertification s.type then
    match key with
    | some (.secretKey t) => match user with
      | none => .ok (some s)
      | some u => do
        let d ← digestOf cr s (signCertInput rawE s.type t.key u s)
        let s ← refinish cr draws primary pass s d
        return some s
    | some _ => .ok none
    | none => .ub
  else if s.type = 0x18 then
    match key with
    | some (.secretSubkey t) => do
      let d ← digestOf cr s (signBindingInput rawE primary.key t.key s)
      let s ← refinish cr draws primary pass s d
      return some s
    | some _ => .ok none
    | none => .ub
  else if s.type = 0x20 then do
    let d ← digestOf cr s (sign20Input rawE body s)
    let s ← refinish cr draws primary pass s d
    return some s
  else if s.type = 0x28 then
    match key with
    | some k => do
      let d ← digestOf cr s (sign28Input rawE k s)
      let s ← refinish cr draws primary pass s d
      return some s
    | none => .ok (some s)
  else if s.type = 0x30 then
    match user with
    | some u => do
      let d ← digestOf cr s (signUserInput rawE 0x30 primary.key u s)
      let s ← refinish cr draws primary pass s d
      return some s
    | none => .ok (some s)
  else .ok none

/-- The loop (keygen.cpp:18-73). `key` and `user` are the pointers of the same names. -/
def fillLoop (cr : Crypto) (rawE : E → Bytes) (draws : Nat → List Nat) (pass keyid : Bytes) (body : Body E) (primary : Tag5) :
    Nat → Option (Body E) → Option (Body E) → List (Pkt E) → Out (Option (List (Pkt E)))
  | _, _, _, [] => .ok (some [])
  | i, key, user, p :: ps =>
    if p.body.tag = 5 ∨ p.body.tag = 6 ∨ p.body.tag = 7 ∨ p.body.tag = 14 then do
      let rest ← fillLoop cr rawE draws pass keyid body primary (i + 1) (some p.body) none ps
      return rest.map (p :: ·)
    else if p.body.tag = 13 ∨ p.body.tag = 17 then do
      let rest ← fillLoop cr rawE draws pass keyid body primary (i + 1) key (some p.body) ps
      return rest.map (p :: ·)
    else match p.body with
      | .sig s => do
        let id ← s.getKeyid
        match ← (if id = keyid then fillSig cr rawE (draws i) pass body primary key user s else .ok (some s)) with
        | none => return none
        | some s' => do
          let rest ← fillLoop cr rawE draws pass keyid body primary (i + 1) key user ps
          return rest.map ({ p with body := .sig s' } :: ·)
      | _ => .ok none

/-- `KeyGen::fill_key_sigs` (keygen.cpp:6-78): the packets afterwards, `none` when it returns false. -/
def fillKeySigs (cr : Crypto) (rawE : E → Bytes) (draws : Nat → List Nat) (k : KeyObj E) (pass : Bytes) : Out (Option (KeyObj E)) := do
  let good ← k.meaningful
  if !good then return none
  else do
    let keyid ← k.keyid cr
    match k.packets with
    | [] => .ub
    | p :: _ => match p.body.secretPart with
      | none => .ub
      | some t => do
        let r ← fillLoop cr rawE draws pass keyid p.body t 0 none none k.packets
        return r.map fun ps => { k with packets := ps }

end OpenPGP
