import Verif.Model.Sign

/-!
# Key generation: `src/keygen.cpp`, `include/keygen.h`, `src/PKA/PKAs.cpp`

Compiled without `GPG_COMPATIBLE`. Random values, the clock and the outcome of the primality tests are arguments.
-/
namespace OpenPGP
variable {E : Type}

/-- The keys of `PKA::NAME` (PKAs.h:68-95) without `GPG_COMPATIBLE`; `PKA::valid` (PKAs.cpp:35-37). -/
def pkaNamed (a : UInt8) : Bool := decide (1 ≤ a ∧ a ≤ 3) || decide (16 ≤ a ∧ a ≤ 21) || decide (100 ≤ a ∧ a ≤ 110)

/-- The keys of `Sym::NAME` (Encryptions.h:85-111); `Sym::valid` (Encryptions.cpp:6-8). -/
def symNamed (a : UInt8) : Bool := decide (a ≤ 13) || decide (100 ≤ a ∧ a ≤ 110)

/-- `Config::UserID` (keygen.h:59-65); `expire` is never used. -/
structure UserConfig where
  user : Bytes
  comment : Bytes
  email : Bytes
  sig : UInt8

/-- `Config::SubkeyGen` (keygen.h:71-78); `expire` is never used. -/
structure SubkeyConfig where
  pka : UInt8
  bits : Nat
  sym : UInt8
  hash : UInt8
  sig : UInt8

/-- `Config` (keygen.h:49-81). -/
structure KeyConfig where
  pass : Bytes
  pka : UInt8
  bits : Nat
  sym : UInt8
  hash : UInt8
  uids : List UserConfig
  subkeys : List SubkeyConfig

/-- `Hash::LENGTH.at(h) < 256`, asked for DSA only (keygen.h:147, 217). -/
def shortForDsa (pka h : UInt8) : Out Bool :=
  if pka = 17 then do
    let n ← mapAt (hashLen h)
    return decide (n * 8 < 256)
  else .ok false

/-- The loop over user IDs in `Config::valid` (keygen.h:141-151). -/
def usersValid (pka : UInt8) : List UserConfig → Out Bool
  | [] => .ok true
  | u :: l => if !hashNamed u.sig then .ok false else do
    let short ← shortForDsa pka u.sig
    if short then return false else usersValid pka l

/-- The loop over subkeys in `Config::valid` (keygen.h:153-221). -/
def subkeysValid : List SubkeyConfig → Out Bool
  | [] => .ok true
  | s :: l =>
    if !pkaNamed s.pka then .ok false
    else if !symNamed s.sym then .ok false
    else if !hashNamed s.hash then .ok false
    else if !hashNamed s.sig then .ok false
    else do
      let short ← shortForDsa s.pka s.sig
      if short then return false else subkeysValid l

/-- `Config::valid` (keygen.h:83-223). -/
def KeyConfig.valid (c : KeyConfig) : Out Bool :=
  if !pkaNamed c.pka then .ok false
  else if !canSign c.pka then .ok false
  else if !symNamed c.sym then .ok false
  else if !hashNamed c.hash then .ok false
  else if c.uids = [] then .ok false
  else do
    let good ← usersValid c.pka c.uids
    if good then subkeysValid c.subkeys else return false

/-- `PKA::generate_params` (PKAs.cpp:39-63). -/
def generateParams (pka : UInt8) (bits : Nat) : List Nat :=
  if pka = 1 ∨ pka = 2 ∨ pka = 3 ∨ pka = 16 then [bits]
  else if pka = 17 then if bits % 1024 ≠ 0 then [] else [bits, if bits = 1024 then 160 else 256]
  else []

/-- The random values for one key: those of the key generators in `Model/Pka.lean` (`np` is `nextprime`, `test` the primality test, `q`
and `start` the drawn starting values, `fuel` a bound on the search, `trials` the nonces of DSA's trial signatures), and the octets for salt
and initialisation vector. -/
structure KeyRand where
  np : Nat → Nat
  test : Nat → Bool
  q : Nat
  start : Nat
  fuel : Nat
  draws : List Nat
  trials : List (List Nat)
  salt : Bytes
  iv : Bytes

/-- `PKA::generate_keypair` (PKAs.cpp:65-101): public and secret values. The sizes in `params` only govern how large the drawn numbers
are. -/
def generateKeypair (r : KeyRand) (pka : UInt8) (params : List Nat) : Out (Option (List Nat × List Nat)) :=
  if params = [] then .ok none
  else if pka = 1 ∨ pka = 2 ∨ pka = 3 then do
    let v ← rsaKeygen r.np r.draws
    if v = [] then return none
    else return some (v.take (v.length - 4), [← vecAt v 2, ← vecAt v 3, ← vecAt v 4, ← vecAt v 5])
  else if pka = 16 then do
    let v ← elgamalKeygen r.test r.q r.start r.fuel r.draws
    return some (v.take (v.length - 1), [← vecAt v 3])
  else if pka = 17 then do
    let pub ← dsaNewPublic r.test r.q r.start r.fuel
    let v ← dsaKeygen r.draws r.trials pub
    return some v
  else .ok none

/-- `rand_bytes(n)` from a supply of octets. -/
def randBytes (supply : Bytes) (n : Nat) : Out Bytes := if supply.length < n then .diverge else .ok (supply.take n)

/-- The packet with passphrase protection (keygen.cpp:117-137, 214-236): S2K with salt and count 96, CFB of the secret octets followed by
their SHA-1. `twice` is the subkey branch, where the SHA-1 of the already extended octets is appended once more (keygen.cpp:231, 236). -/
def protectSecret (cr : Crypto) (r : KeyRand) (twice : Bool) (key : KeyPkt) (sym hash : UInt8) (pass secret : Bytes) : Out Tag5 := do
  let salt ← randBytes r.salt 8
  let n ← mapAt (keyLen sym)
  let sessionKey ← (S2K.iterated hash salt 96).run cr pass n
  let sum ← hashUse cr 2 secret
  let secret := secret ++ sum
  let bs ← mapAt (blockLen sym)
  let iv ← randBytes r.iv bs
  let again ← (if twice then hashUse cr 2 secret else .ok [] : Out Bytes)
  let secret ← useNormalCfbEncrypt cr sym (secret ++ again) sessionKey iv
  return ⟨key, 254, sym, some (.iterated hash salt 96), iv, secret⟩

/-- A secret key packet for the values (keygen.cpp:102-150 and 197-250): version 4. -/
def newSecretPacket (cr : Crypto) (r : KeyRand) (twice : Bool) (pka sym hash : UInt8) (now : Nat) (pass : Bytes) (pub pri : List Nat) : Out Tag5 :=
  let key : KeyPkt := ⟨4, now, pka, pub, 0⟩
  let secret := writeMPIs pri
  if pass ≠ [] then protectSecret cr r twice key sym hash pass secret
  else .ok ⟨key, 0, 0, none, [], secret ++ be 2 (octetSum secret)⟩

/-- `Tag13::set_info` (Tag13.cpp:42-58). -/
def setInfo (name comment email : Bytes) : Bytes :=
  let c := name
  let c := if comment ≠ [] then (if c ≠ [] then c ++ [0x20] else c) ++ (ascii "(" ++ comment ++ ascii ")") else c
  if email ≠ [] then (if c ≠ [] then c ++ [0x20] else c) ++ (ascii "<" ++ email ++ ascii ">") else c

/-- User IDs and their self-certifications (keygen.cpp:159-192); one list of nonces per signature. `none` when signing fails. -/
def genUsers (cr : Crypto) (rawE : E → Bytes) (pass : Bytes) (pka : UInt8) (primary : Tag5) (keyid : Bytes) (now : Nat) :
    List UserConfig → List (List Nat) → Out (Option (List (Pkt E)))
  | [], _ => .ok (some [])
  | _ :: _, [] => .diverge
  | u :: us, nonces :: more => do
    let uid : Body E := .userId (setInfo u.user u.comment u.email)
    let sig ← signCertification cr rawE nonces primary pass (.secretKey primary) uid (createSig 4 0x13 pka u.sig keyid now)
    match sig with
    | none => return none
    | some s => do
      let rest ← genUsers cr rawE pass pka primary keyid now us more
      return rest.map fun l => ⟨.new, false, uid⟩ :: ⟨.new, false, .sig s⟩ :: l

/-- Subkeys and their bindings (keygen.cpp:194-274); random values and nonces for each. -/
def genSubkeys (cr : Crypto) (rawE : E → Bytes) (pass : Bytes) (pka : UInt8) (primary : Tag5) (keyid : Bytes) (now : Nat) :
    List SubkeyConfig → List (KeyRand × List Nat) → Out (Option (List (Pkt E)))
  | [], _ => .ok (some [])
  | _ :: _, [] => .diverge
  | c :: cs, (r, nonces) :: more => do
    match ← generateKeypair r c.pka (generateParams c.pka (c.bits / 2)) with
    | none => return none
    | some (pub, pri) => do
      let sub ← newSecretPacket cr r true c.pka c.sym c.hash now pass pub pri
      let sig ← signSubkeyBinding cr rawE nonces primary pass sub (createSig 4 0x18 pka c.sig keyid now)
      match sig with
      | none => return none
      | some s => do
        let rest ← genSubkeys cr rawE pass pka primary keyid now cs more
        return rest.map fun l => ⟨.new, false, .secretSubkey sub⟩ :: ⟨.new, false, .sig s⟩ :: l

/-- `SecretKey()` (Key.cpp). -/
def noSecretKey : KeyObj E := ⟨.sec, []⟩

/-- `KeyGen::generate_key` (keygen.cpp:80-287). The armor settings of the result are not part of `KeyObj`. -/
def generateKey (cr : Crypto) (rawE : E → Bytes) (c : KeyConfig) (now : Nat) (r : KeyRand) (nonces : List (List Nat))
    (subs : List (KeyRand × List Nat)) : Out (KeyObj E) := do
  let good ← c.valid
  if !good then return noSecretKey
  else match ← generateKeypair r c.pka (generateParams c.pka (c.bits / 2)) with
    | none => return noSecretKey
    | some (pub, pri) => do
      let primary ← newSecretPacket cr r false c.pka c.sym c.hash now c.pass pub pri
      let keyid ← primary.key.keyid cr
      match ← genUsers cr rawE c.pass c.pka primary keyid now c.uids nonces with
      | none => return noSecretKey
      | some users => do
        match ← genSubkeys cr rawE c.pass c.pka primary keyid now c.subkeys subs with
        | none => return noSecretKey
        | some subkeys => return ⟨.sec, ⟨.new, false, .secretKey primary⟩ :: (users ++ subkeys)⟩

end OpenPGP
