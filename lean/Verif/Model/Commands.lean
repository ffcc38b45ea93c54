import Verif.Model.Cli
import Verif.Model.CryptSigned
import Verif.Model.Revoke
import Verif.Model.List
import Verif.Model.Keygen

/-!
# The commands: `cli/modules/*.h`

Every command reads files and writes to its output stream; what it writes to the error stream is left out. `files` are the files that can
be opened, with their contents. `std::endl` writes a line feed. The only command that writes files by itself is `generate-keypair`: `keypairRun` gives them beside what is
printed. Image files that `show` writes (C62) are left out.
-/
namespace OpenPGP.Cli
open OpenPGP
variable {E : Type}

/-- What commands take from the outside. -/
structure Env (E : Type) extends World E where
  files : Bytes → Option Bytes
  /-- `show_date` -/
  date : Nat → Bytes
  /-- what `show` depends on, and `show` of an embedded signature -/
  shown : ShowEnv E
  showE : E → Out (List Act)
  /-- the random values of `generate-keypair`: for the primary key, for the certification, for the subkey -/
  genRand : KeyRand
  genNonces : List (List Nat)
  genSubs : List (KeyRand × List Nat)
  /-- the files that can be opened for writing -/
  canWrite : Bytes → Bool

/-- `args.at(name)`, which throws if there is no such argument. -/
def Parsed.arg (p : Parsed) (name : String) : Out Bytes := match p.args (ascii name) with | some v => .ok v | none => .throw

/-- `flags.at(name)`. -/
def Parsed.flag (p : Parsed) (name : String) : Out Bool := match p.flags (ascii name) with | some v => .ok v | none => .throw

/-- `return -1` behind a message on the error stream. -/
def failed : Out Ran := .ok ⟨-1, []⟩

/-- `out << text << std::endl; return 0`. -/
def printed (text : Bytes) : Out Ran := .ok ⟨0, text ++ [10]⟩

/-- `flags.at("-a") ? Armored::YES : Armored::NO`. -/
def armorOf (b : Bool) : ArmorMode := if b then .yes else .no

/-- `Hash::NUMBER` (Hashes.h:100-108). -/
def hashNumbers : List (Bytes × UInt8) :=
  [(ascii "MD5", 1), (ascii "SHA1", 2), (ascii "RIPEMD160", 3), (ascii "SHA256", 8), (ascii "SHA384", 9), (ascii "SHA512", 10), (ascii "SHA224", 11)]

/-- `Sym::NUMBER` (Encryptions.h:113-126). -/
def symNumbers : List (Bytes × UInt8) :=
  [(ascii "PLAINTEXT", 0), (ascii "IDEA", 1), (ascii "TRIPLEDES", 2), (ascii "CAST5", 3), (ascii "BLOWFISH", 4), (ascii "AES128", 7),
   (ascii "AES192", 8), (ascii "AES256", 9), (ascii "TWOFISH256", 10), (ascii "CAMELLIA128", 11), (ascii "CAMELLIA192", 12), (ascii "CAMELLIA256", 13)]

/-- `Compression::NUMBER` (Compress.h:76-81). -/
def compNumbers : List (Bytes × UInt8) := [(ascii "UNCOMPRESSED", 0), (ascii "ZIP", 1), (ascii "ZLIB", 2), (ascii "BZip2", 3)]

/-- The value of a row of decimal digits in front of a number read so far, and whether there was a digit. -/
def readDigits : (acc : Nat) → (any : Bool) → Bytes → Option Nat
  | acc, any, c :: cs => if 48 ≤ c ∧ c ≤ 57 then readDigits (10 * acc + (c.toNat - 48)) true cs else if any then some acc else none
  | acc, any, [] => if any then some acc else none

/-- `stream >> n` for an unsigned integer type of `bits` bits (libstdc++, C locale): leading white space, a sign, digits; what follows is left
in the stream. A minus sign negates modulo 2^bits; a number that does not fit is a failure. -/
def readUnsigned (bits : Nat) (s : Bytes) : Option Nat :=
  let s := s.dropWhile Module.isSpace
  let neg := s.head? = some 45
  let s := if s.head? = some 45 ∨ s.head? = some 43 then s.drop 1 else s
  match readDigits 0 false s with
  | none => none
  | some n => if n < 2 ^ bits then some (if neg then (2 ^ bits - n) % 2 ^ bits else n) else none

/-- `PKA::NUMBER` (PKAs.h:139-150) without `GPG_COMPATIBLE`. -/
def pkaNumbers : List (Bytes × UInt8) :=
  [(ascii "RSA_ENCRYPT_OR_SIGN", 1), (ascii "RSA_ENCRYPT_ONLY", 2), (ascii "RSA_SIGN_ONLY", 3), (ascii "ELGAMAL", 16), (ascii "DSA", 17)]

/-- `std::strtoul(s, 0, 10)` with 64 bits: as `readUnsigned`, but without digits it is zero, and the greatest number stands for one that does
not fit. -/
def strtoul (s : Bytes) : Nat :=
  let s := s.dropWhile Module.isSpace
  let neg := s.head? = some 45
  let s := if s.head? = some 45 ∨ s.head? = some 43 then s.drop 1 else s
  match readDigits 0 false s with
  | none => 0
  | some n => if n < 2 ^ 64 then (if neg then (2 ^ 64 - n) % 2 ^ 64 else n) else 2 ^ 64 - 1

/-- `Key::Key(stream)` (Key.cpp:53-77): the armor headers and the key. The constructor calls `Key::meaningful` whatever the class of the
object. -/
def keyOf (readE : Bytes → Out E) (data : Bytes) : Out (List (Bytes × Bytes) × KeyObj E) := do
  let o ← pgpRead (Pkt.parse readE) .fresh data
  let kind ← (if o.type = 0 then
      if o.packets.length < 2 then .throw
      else match o.packets with
        | p :: _ => if p.body.tag = 6 then .ok KeyKind.pub else if p.body.tag = 5 then .ok .sec else .throw
        | [] => .throw
    else if o.type = 2 then .ok .pub else if o.type = 3 then .ok .sec else .ok .other)
  let good ← (⟨kind, o.packets⟩ : KeyObj E).meaningful
  if !good then .throw else return (o.keys, ⟨kind, o.packets⟩)

/-- `DetachedSignature::DetachedSignature(stream)` (DetachedSignature.cpp:32-41). -/
def detachedFrom (readE : Bytes → Out E) (data : Bytes) : Out (PgpObj (Pkt E)) := do
  let o ← pgpRead (Pkt.parse readE) .fresh data
  if o.packets.length ≠ 1 then .throw else return { o with type := 6 }

/-- `RevocationCertificate::RevocationCertificate(stream)` (RevocationCertificate.cpp:30-39). -/
def revocationFrom (readE : Bytes → Out E) (data : Bytes) : Out (PgpObj (Pkt E)) := do
  let o ← pgpRead (Pkt.parse readE) .fresh data
  if (revocationPacket { o with type := 2 }).isNone then .throw else return { o with type := 2 }

/-- `write` of a key, detached signature or certificate: `PGP::write` (PGP.cpp:513-530). -/
def writeObj (rawE : E → Bytes) (o : PgpObj (Pkt E)) (mode : ArmorMode) : Out Bytes := do
  let d ← writeRaw (Pkt.write rawE) o.packets
  pgpWrite o mode d

/-- `PublicKey::write` (PGP.cpp:513-530) of a key with armor headers. -/
def writeKey (rawE : E → Bytes) (keys : List (Bytes × Bytes)) (k : KeyObj E) (mode : ArmorMode) : Out Bytes :=
  writeObj rawE ⟨true, if k.kind = .pub then 2 else 3, keys, k.packets⟩ mode

/-- `Message::write` (Message.cpp:242-267), which compresses what `Message::raw` has compressed before. -/
def writeMsg (z : Zip) (rawE : E → Bytes) (keys : List (Bytes × Bytes)) (m : Msg E) (mode : ArmorMode) : Out Bytes := do
  let d ← m.raw z rawE
  let d ← (match m.comp with
    | none => .ok d
    | some (fmt, part, alg) => do
      let c ← compress z alg d
      Pkt.write rawE ⟨fmt, part, .compressed alg c⟩)
  pgpWrite (⟨true, 1, keys, ([] : List (Pkt E))⟩) mode d

/-- `("Version", "cc")`. -/
def versionCc : List (Bytes × Bytes) := [(ascii "Version", ascii "cc")]

namespace Commands
variable (e : Env E)

/-- The text of `fingerprint` (fingerprint.h:80-101): the loop over groups. `fuel` is the size of the fingerprint. -/
def groups (sep : Bytes) (split : Nat) : (fuel : Nat) → (fp : Bytes) → Bytes
  | 0, _ => []
  | fuel + 1, fp => if split < fp.length then hexlify (fp.take split) ++ sep ++ groups sep split fuel (fp.drop split) else []

/-- `fingerprint` (fingerprint.h:34-105). -/
def fingerprint : Module :=
  ⟨ascii "fingerprint", [ascii "key-file"], [(ascii "-s", ascii ":"), (ascii "-g", ascii "1")], [], fun p => do
    let name ← p.arg "key-file"
    match e.files name with
    | none => failed
    | some f => do
      let g ← p.arg "-g"
      match readUnsigned 64 g with
      | none => failed
      | some split => do
        let (_, key) ← keyOf e.readE f
        let fp ← (match key.packets with
          | q :: _ => match q.body.keyPart with
            | some kp => kp.fingerprint e.cr
            | none => .ub
          | [] => .ub)
        if split ≠ 0 then do
          let sep ← p.arg "-s"
          let rem := if fp.length % split = 0 ∨ split = 1 then split else fp.length % split
          let last ← substr fp (subSz fp.length rem) rem
          printed (groups sep split fp.length fp ++ hexlify last)
        else printed (hexlify fp)⟩

/-- `extract-public` (extract_public.h:9-48). -/
def extractPublic : Module :=
  ⟨ascii "extract-public", [ascii "private-key"], [], [(ascii "-a", true)], fun p => do
    let name ← p.arg "private-key"
    match e.files name with
    | none => failed
    | some f => do
      let (keys, pri) ← keyOf e.readE f
      if pri.kind ≠ .sec then failed
      else do
        let pub ← pri.getPublic
        let a ← p.flag "-a"
        let t ← writeKey e.rawE keys pub (armorOf a)
        printed t⟩

/-- The signing key of the encrypting commands (encrypt_pka.h:91-105, encrypt_sym.h:91-105): `none` ends the command. -/
def signerFrom (p : Parsed) : Out (Option (Option (KeyObj E × Bytes))) := do
  let s ← p.arg "--sign"
  if s = [] then return some none
  else match e.files s with
    | none => return none
    | some f => do
      let (_, k) ← keyOf e.readE f
      if k.kind ≠ .sec then return none
      else do
        let pass ← p.arg "-p"
        return some (some (k, pass))

/-- `encrypt-pka` (encrypt_pka.h:34-126). The public key is read after the data. -/
def encryptPka : Module :=
  ⟨ascii "encrypt-pka", [ascii "public-key", ascii "file"],
    [(ascii "-c", ascii "ZLIB"), (ascii "-p", []), (ascii "--sign", []), (ascii "--sym", ascii "AES256"), (ascii "-h", ascii "SHA1")],
    [(ascii "-a", true), (ascii "--mdc", true)], fun p => do
    let kname ← p.arg "public-key"
    match e.files kname with
    | none => failed
    | some kf => do
      let name ← p.arg "file"
      match e.files name with
      | none => failed
      | some f => do
        let h ← p.arg "-h"
        let c ← p.arg "-c"
        let s ← p.arg "--sym"
        match hashNumbers.lookup h, compNumbers.lookup c, symNumbers.lookup s with
        | some h, some c, some s => do
          match ← signerFrom e p with
          | none => failed
          | some signer => do
            let mdc ← p.flag "--mdc"
            let (_, pub) ← keyOf e.readE kf
            let m ← (if pub.kind ≠ .pub then .ok .empty else encryptPkaS e.toWorld ⟨name, f, s, c, mdc, h⟩ signer pub)
            let good ← m.meaningful
            if !good then failed
            else do
              let a ← p.flag "-a"
              let t ← writeMsg e.z e.rawE versionCc m (armorOf a)
              printed t
        | _, _, _ => failed⟩

/-- `encrypt-sym` (encrypt_sym.h:34-119). The message is written whether it is meaningful or not; `Message()` has no armor headers. -/
def encryptSym : Module :=
  ⟨ascii "encrypt-sym", [ascii "file", ascii "passphrase"],
    [(ascii "-c", ascii "ZLIB"), (ascii "-p", []), (ascii "--sym", ascii "AES256"), (ascii "--khash", ascii "SHA1"), (ascii "--sign", []),
     (ascii "--shash", ascii "SHA1")],
    [(ascii "-a", true), (ascii "--mdc", true)], fun p => do
    let name ← p.arg "file"
    match e.files name with
    | none => failed
    | some f => do
      let c ← p.arg "-c"
      let s ← p.arg "--sym"
      let kh ← p.arg "--khash"
      let sh ← p.arg "--shash"
      match compNumbers.lookup c, symNumbers.lookup s, hashNumbers.lookup kh, hashNumbers.lookup sh with
      | some c, some s, some kh, some sh => do
        match ← signerFrom e p with
        | none => failed
        | some signer => do
          let mdc ← p.flag "--mdc"
          let pass ← p.arg "passphrase"
          let m ← encryptSymS e.toWorld ⟨name, f, s, c, mdc, sh⟩ signer pass kh
          let a ← p.flag "-a"
          let t ← writeMsg e.z e.rawE (if m.packets = [] then [] else versionCc) m (armorOf a)
          printed t
      | _, _, _, _ => failed⟩

/-- The sentence about a signature: `not` is inserted unless the verdict is yes. -/
def notUnless (v : Verdict) : Bytes := if v = .yes then [] else ascii " not"

/-- The literal data of a message (decrypt_sym.h:89-95, decrypt_pka.h:98-109), each followed by `behind`. -/
def literals (behind : Bytes) : List (Pkt E) → Bytes
  | [] => []
  | ⟨_, _, .literal t⟩ :: ps => t.literal ++ behind ++ literals behind ps
  | _ :: ps => literals behind ps

/-- The list of signatures (decrypt_sym.h:109-115, decrypt_pka.h:122-128). -/
def listSigs : List (Pkt E) → Out Bytes
  | [] => .ok []
  | ⟨_, _, .sig s⟩ :: ps => do
    let k ← s.getKeyid
    let r ← listSigs ps
    return ascii "Unverified signature from " ++ hexlify k ++ ascii " found.\n" ++ r
  | _ :: ps => listSigs ps

/-- The end of the decrypting commands (decrypt_sym.h:99-119, decrypt_pka.h:112-132). -/
def report (sname : Bytes) (signer : Option (KeyObj E)) (clear : Bytes) (m : Msg E) : Out Ran :=
  match signer with
  | some k => do
    let v ← verifyBinary e.cr e.z e.rawE e.readE e.depth k m
    let id ← k.keyid e.cr
    printed (clear ++ ascii "Message was" ++ notUnless v ++ ascii " signed by \"" ++ sname ++ ascii "\" (" ++ hexlify id ++ ascii ").\n")
  | none => do
    let l ← listSigs m.packets
    printed (clear ++ l)

/-- The public key named by `-s` (decrypt_sym.h:65-79, decrypt_pka.h:72-86): `none` ends the command. `pubOnly` for the class `PublicKey`. -/
def checkerFrom (p : Parsed) (pubOnly : Bool) : Out (Option (Bytes × Option (KeyObj E))) := do
  let s ← p.arg "-s"
  if s = [] then return some ([], none)
  else match e.files s with
    | none => return none
    | some f => do
      let (_, k) ← keyOf e.readE f
      if pubOnly ∧ k.kind ≠ .pub then return none else return some (s, some k)

/-- `decrypt-pka` (decrypt_pka.h:34-133). -/
def decryptPka : Module :=
  ⟨ascii "decrypt-pka", [ascii "private-key", ascii "passphrase", ascii "file"], [(ascii "-s", [])], [], fun p => do
    let kname ← p.arg "private-key"
    match e.files kname with
    | none => failed
    | some kf => do
      let name ← p.arg "file"
      match e.files name with
      | none => failed
      | some f => do
        match ← checkerFrom e p false with
        | none => failed
        | some (sname, signer) => do
          let (_, pri) ← keyOf e.readE kf
          let m ← Msg.ofString e.z e.readE e.depth f
          let pass ← p.arg "passphrase"
          let d ← (if pri.kind ≠ .sec then .ok .empty else OpenPGP.decryptPka e.cr e.z e.readE e.depth pri pass m)
          let good ← d.meaningful
          if !good then failed else report e sname signer (literals (ascii "\n") d.packets) d⟩

/-- `decrypt-sym` (decrypt_sym.h:34-120). -/
def decryptSym : Module :=
  ⟨ascii "decrypt-sym", [ascii "file", ascii "passphrase"], [(ascii "-s", [])], [], fun p => do
    let name ← p.arg "file"
    match e.files name with
    | none => failed
    | some f => do
      match ← checkerFrom e p true with
      | none => failed
      | some (sname, signer) => do
        let m ← Msg.ofString e.z e.readE e.depth f
        let pass ← p.arg "passphrase"
        let d ← OpenPGP.decryptSym e.cr e.z e.readE e.depth m pass
        let good ← d.meaningful
        if !good then failed else report e sname signer (literals [] d.packets ++ ascii "\n\n") d⟩

/-- `unsigned int code; s >> code; is_key_revocation(code)` (generate_revoke_key_cert.h:67-72 and others, Sub29.cpp:28-30): the parameter is a
`uint8_t`. -/
def revocationCode (s : Bytes) : Option UInt8 :=
  match readUnsigned 32 s with
  | none => none
  | some n => if UInt8.ofNat n ≤ 3 then some (UInt8.ofNat n) else none

/-- What the revoking commands share: key, code (or a fixed one) and hash; `k` gets the armor headers and the arguments. -/
def revoking (code : Option UInt8) (p : Parsed) (k : List (Bytes × Bytes) → RevokeArgs E → Out Ran) : Out Ran := do
  let name ← p.arg "private-key"
  match e.files name with
  | none => failed
  | some f => do
    let c ← (match code with
      | some c => .ok (some c)
      | none => do let s ← p.arg "-c"; return revocationCode s)
    match c with
    | none => failed
    | some c => do
      let h ← p.arg "-h"
      match hashNumbers.lookup h with
      | none => failed
      | some h => do
        let (keys, pri) ← keyOf e.readE f
        let pass ← p.arg "passphrase"
        let r ← p.arg "-r"
        k keys ⟨pri, pass, pri, c, r, 4, h⟩

/-- `out << cert.write(...) << std::endl`. -/
def printObj (p : Parsed) (o : PgpObj (Pkt E)) : Out Ran := do
  let a ← p.flag "-a"
  let t ← writeObj e.rawE o (armorOf a)
  printed t

/-- The end of the commands that print a public key: `PublicKey::meaningful` asks for the type. -/
def printKey (p : Parsed) (keys : List (Bytes × Bytes)) (k : KeyObj E) : Out Ran := do
  let good ← (if k.kind ≠ .pub then .ok false else k.meaningful)
  if !good then failed
  else do
    let a ← p.flag "-a"
    let t ← writeKey e.rawE keys k (armorOf a)
    printed t

/-- The options of the revoking commands. -/
def revokeOpts : List (Bytes × Bytes) := [(ascii "-c", ascii "0"), (ascii "-r", []), (ascii "-h", ascii "SHA1")]

/-- `generate-revoke-key-cert` (generate_revoke_key_cert.h:34-98), with the condition of line 90 as it is. -/
def generateRevokeKeyCert : Module :=
  ⟨ascii "generate-revoke-key-cert", [ascii "private-key", ascii "passphrase"], revokeOpts, [(ascii "-a", true)], fun p =>
    revoking e none p fun _ a => do
      let cert ← revokeKeyCert e.cr e.rawE a e.now e.nonces
      if (revocationPacket cert).isSome then failed else printObj e p cert⟩

/-- `generate-revoke-subkey-cert` (generate_revoke_subkey_cert.h:34-99). -/
def generateRevokeSubkeyCert : Module :=
  ⟨ascii "generate-revoke-subkey-cert", [ascii "private-key", ascii "passphrase"], revokeOpts ++ [(ascii "-k", [])], [(ascii "-a", true)], fun p =>
    revoking e none p fun _ a => do
      let k ← p.arg "-k"
      let cert ← revokeSubkeyCert e.cr e.rawE a e.now e.nonces k
      if (revocationPacket cert).isNone then failed else printObj e p cert⟩

/-- `generate-revoke-uid-cert` (generate_revoke_uid_cert.h:34-91). -/
def generateRevokeUidCert : Module :=
  ⟨ascii "generate-revoke-uid-cert", [ascii "private-key", ascii "passphrase"], [(ascii "-r", []), (ascii "-h", ascii "SHA1"), (ascii "-u", [])],
    [(ascii "-a", true)], fun p =>
    revoking e (some 32) p fun _ a => do
      let u ← p.arg "-u"
      let cert ← revokeUidCert e.cr e.rawE a e.now e.nonces u
      if (revocationPacket cert).isNone then failed else printObj e p cert⟩

/-- `revoke-with-cert` (revoke_with_cert.h:34-84). -/
def revokeWithCert : Module :=
  ⟨ascii "revoke-with-cert", [ascii "target", ascii "revocation-certificate"], [], [(ascii "-a", true)], fun p => do
    let tname ← p.arg "target"
    match e.files tname with
    | none => failed
    | some tf => do
      let cname ← p.arg "revocation-certificate"
      match e.files cname with
      | none => failed
      | some cf => do
        let (keys, key) ← keyOf e.readE tf
        let rev ← revocationFrom e.readE cf
        let k ← OpenPGP.revokeWithCert e.cr e.rawE key rev
        printKey e p keys k⟩

/-- `revoke-primary-key` (revoke_primary_key.h:34-98). -/
def revokePrimaryKey : Module :=
  ⟨ascii "revoke-primary-key", [ascii "private-key", ascii "passphrase"], revokeOpts, [(ascii "-a", true)], fun p =>
    revoking e none p fun keys a => do
      let k ← revokeKey e.cr e.rawE a e.now e.nonces
      printKey e p keys k⟩

/-- `revoke-subkey` (revoke_subkey.h:34-99). -/
def revokeSubkey : Module :=
  ⟨ascii "revoke-subkey", [ascii "private-key", ascii "passphrase"], revokeOpts ++ [(ascii "-k", [])], [(ascii "-a", true)], fun p =>
    revoking e none p fun keys a => do
      let id ← p.arg "-k"
      let k ← OpenPGP.revokeSubkey e.cr e.rawE a e.now e.nonces id
      printKey e p keys k⟩

/-- `revoke-uid` (revoke_uid.h:34-99). -/
def revokeUid : Module :=
  ⟨ascii "revoke-uid", [ascii "private-key", ascii "passphrase"], revokeOpts ++ [(ascii "-u", [])], [(ascii "-a", true)], fun p =>
    revoking e none p fun keys a => do
      let id ← p.arg "-u"
      let k ← OpenPGP.revokeUid e.cr e.rawE a e.now e.nonces id
      printKey e p keys k⟩

/-- What the commands that sign a file share (sign_detached_signature.h:60-83 and others): `pre` is checked before the hash, `k` gets the arguments,
the name and contents of the file. -/
def signing (p : Parsed) (pre : Out Bool) (k : SignArgs E → Bytes → Bytes → Out Ran) : Out Ran := do
  let kname ← p.arg "private-key"
  match e.files kname with
  | none => failed
  | some kf => do
    let name ← p.arg "file"
    match e.files name with
    | none => failed
    | some f => do
      let good ← pre
      if !good then failed
      else do
        let h ← p.arg "-h"
        match hashNumbers.lookup h with
        | none => failed
        | some h => do
          let (_, pri) ← keyOf e.readE kf
          let pass ← p.arg "passphrase"
          k ⟨pri, pass, 4, h⟩ name f

/-- `sign-cleartext-signature` (sign_cleartext_signature.h:34-92). -/
def signCleartextSignature : Module :=
  ⟨ascii "sign-cleartext-signature", [ascii "private-key", ascii "passphrase", ascii "file"], [(ascii "-h", ascii "SHA1")], [], fun p =>
    signing e p (.ok true) fun a _ f => do
      let c ← signCleartext e.cr e.rawE a e.now e.nonces f
      if c.sig.type ≠ 6 ∨ c.sig.packets.length ≠ 1 then failed
      else do
        let d ← writeRaw (Pkt.write e.rawE) c.sig.packets
        let t ← cleartextWrite c d
        printed t⟩

/-- `sign-detached-signature` (sign_detached_signature.h:34-92). -/
def signDetachedSignature : Module :=
  ⟨ascii "sign-detached-signature", [ascii "private-key", ascii "passphrase", ascii "file"], [(ascii "-h", ascii "SHA1")], [(ascii "-a", true)], fun p =>
    signing e p (.ok true) fun a _ f => do
      let s ← signDetached e.cr e.rawE a e.now e.nonces f
      if s.type ≠ 6 ∨ s.packets.length ≠ 1 then failed else printObj e p s⟩

/-- `sign-file` (sign_file.h:34-98). A compressed message is read from its octets and has no armor headers. -/
def signFile : Module :=
  ⟨ascii "sign-file", [ascii "private-key", ascii "passphrase", ascii "file"], [(ascii "-c", ascii "ZLIB"), (ascii "-h", ascii "SHA1")],
    [(ascii "-a", true)], fun p =>
    signing e p (do let c ← p.arg "-c"; return (compNumbers.lookup c).isSome) fun a name f => do
      let c ← p.arg "-c"
      match compNumbers.lookup c with
      | none => failed
      | some c => do
        let m ← signBinary e.cr e.z e.rawE e.readE e.depth a e.now e.nonces name f c
        let good ← m.meaningful
        if !good then failed
        else do
          let ar ← p.flag "-a"
          let t ← writeMsg e.z e.rawE (if c = 0 then versionCc else []) m (armorOf ar)
          printed t⟩

/-- `sign-primary-key` (sign_primary_key.h:34-94). `mpitoulong(hextompi(...))` ends in a `uint8_t`. -/
def signPrimaryKey : Module :=
  ⟨ascii "sign-primary-key", [ascii "signer-key", ascii "passphrase", ascii "signee-key"],
    [(ascii "-c", ascii "13"), (ascii "-h", ascii "SHA1"), (ascii "-u", [])], [(ascii "-a", true)], fun p => do
    let rname ← p.arg "signer-key"
    match e.files rname with
    | none => failed
    | some rf => do
      let ename ← p.arg "signee-key"
      match e.files ename with
      | none => failed
      | some ef => do
        let h ← p.arg "-h"
        match hashNumbers.lookup h with
        | none => failed
        | some h => do
          let (_, pri) ← keyOf e.readE rf
          let pass ← p.arg "passphrase"
          let (keys, signee) ← keyOf e.readE ef
          let u ← p.arg "-u"
          let c ← p.arg "-c"
          let c ← hextompi c
          let k ← OpenPGP.signPrimaryKey e.cr e.rawE ⟨pri, pass, 4, h⟩ e.now e.nonces signee u (UInt8.ofNat c)
          printKey e p keys k⟩

/-- `sign-subkey` (sign_subkey.h:34-97): the call is commented out. -/
def signSubkey : Module :=
  ⟨ascii "sign-subkey", [ascii "signer-key", ascii "passphrase", ascii "signee-key"],
    [(ascii "-c", ascii "13"), (ascii "-h", ascii "SHA1"), (ascii "-u", []), (ascii "-v", [])], [(ascii "-a", true)], fun p => do
    let rname ← p.arg "signer-key"
    match e.files rname with
    | none => failed
    | some rf => do
      let ename ← p.arg "signee-key"
      match e.files ename with
      | none => failed
      | some _ => do
        let h ← p.arg "-h"
        match hashNumbers.lookup h with
        | none => failed
        | some _ => do
          let _ ← keyOf e.readE rf
          let _ ← p.arg "passphrase"
          failed⟩

/-- `sign-timestamp` (sign_timestamp.h:34-93). -/
def signTimestamp : Module :=
  ⟨ascii "sign-timestamp", [ascii "signer-key", ascii "passphrase", ascii "seconds-since-epoch"], [(ascii "-h", ascii "SHA1")], [(ascii "-a", true)], fun p => do
    let rname ← p.arg "signer-key"
    match e.files rname with
    | none => failed
    | some rf => do
      let t ← p.arg "seconds-since-epoch"
      match readUnsigned 32 t with
      | none => failed
      | some time => do
        let h ← p.arg "-h"
        match hashNumbers.lookup h with
        | none => failed
        | some h => do
          let (_, pri) ← keyOf e.readE rf
          let pass ← p.arg "passphrase"
          let s ← OpenPGP.signTimestamp e.cr e.rawE ⟨pri, pass, 4, h⟩ e.now e.nonces time
          if s.type ≠ 6 ∨ s.packets.length ≠ 1 then failed else printObj e p s⟩

/-- `return !verified` behind a sentence, or -1. -/
def verdict (v : Verdict) (sentence : Bytes) : Out Ran :=
  match v with
  | .error => failed
  | .yes => .ok ⟨0, sentence ++ [10]⟩
  | .no => .ok ⟨1, sentence ++ [10]⟩

/-- ` signed by "key" (id).` -/
def signedBy (kname id : Bytes) : Bytes := ascii " signed by \"" ++ kname ++ ascii "\" (" ++ hexlify id ++ ascii ")."

/-- `verify-cleartext-signature` (verify_cleartext_signature.h:34-84). -/
def verifyCleartextSignature : Module :=
  ⟨ascii "verify-cleartext-signature", [ascii "key", ascii "signature"], [], [], fun p => do
    let kname ← p.arg "key"
    match e.files kname with
    | none => failed
    | some kf => do
      let sname ← p.arg "signature"
      match e.files sname with
      | none => failed
      | some sf => do
        let (_, k) ← keyOf e.readE kf
        let s ← cleartextOf (Pkt.parse e.readE) sf
        let v ← verifyCleartext e.cr e.rawE k s
        if v = .error then failed
        else do
          let id ← k.keyid e.cr
          verdict v (ascii "This message was" ++ notUnless v ++ signedBy kname id)⟩

/-- `verify-detached-signature` (verify_detached_signature.h:34-91). -/
def verifyDetachedSignature : Module :=
  ⟨ascii "verify-detached-signature", [ascii "key", ascii "file", ascii "signature"], [], [], fun p => do
    let kname ← p.arg "key"
    match e.files kname with
    | none => failed
    | some kf => do
      let name ← p.arg "file"
      match e.files name with
      | none => failed
      | some f => do
        let sname ← p.arg "signature"
        match e.files sname with
        | none => failed
        | some sf => do
          let (_, k) ← keyOf e.readE kf
          let s ← detachedFrom e.readE sf
          let v ← verifyDetached e.cr e.rawE k f s
          if v = .error then failed
          else do
            let id ← k.keyid e.cr
            verdict v (ascii "File \"" ++ name ++ ascii "\" was" ++ notUnless v ++ signedBy kname id)⟩

/-- `verify-file` (verify_file.h:34-84). -/
def verifyFile : Module :=
  ⟨ascii "verify-file", [ascii "key", ascii "message"], [], [], fun p => do
    let kname ← p.arg "key"
    match e.files kname with
    | none => failed
    | some kf => do
      let name ← p.arg "message"
      match e.files name with
      | none => failed
      | some f => do
        let (_, k) ← keyOf e.readE kf
        let m ← Msg.ofString e.z e.readE e.depth f
        let v ← verifyBinary e.cr e.z e.rawE e.readE e.depth k m
        if v = .error then failed
        else do
          let id ← k.keyid e.cr
          verdict v (ascii "The data in \"" ++ name ++ ascii "\" was" ++ notUnless v ++ signedBy kname id)⟩

/-- `verify-primary-key` (verify_primary_key.h:34-83). -/
def verifyPrimaryKey : Module :=
  ⟨ascii "verify-primary-key", [ascii "signer-key", ascii "signee-key"], [], [], fun p => do
    let rname ← p.arg "signer-key"
    match e.files rname with
    | none => failed
    | some rf => do
      let ename ← p.arg "signee-key"
      match e.files ename with
      | none => failed
      | some ef => do
        let (_, r) ← keyOf e.readE rf
        let (_, k) ← keyOf e.readE ef
        let v ← OpenPGP.verifyPrimaryKey e.cr e.rawE r k
        if v = .error then failed
        else do
          let kid ← k.keyid e.cr
          let rid ← r.keyid e.cr
          verdict v (ascii "Key in \"" ++ ename ++ ascii "\" (" ++ hexlify kid ++ ascii ") was" ++ notUnless v ++ ascii " signed by key in \"" ++ rname ++
            ascii "\" (" ++ hexlify rid ++ ascii ").")⟩

/-- `verify-revoke` (verify_revoke.h:34-84). -/
def verifyRevoke : Module :=
  ⟨ascii "verify-revoke", [ascii "key", ascii "revocation-certificate"], [], [], fun p => do
    let kname ← p.arg "key"
    match e.files kname with
    | none => failed
    | some kf => do
      let cname ← p.arg "revocation-certificate"
      match e.files cname with
      | none => failed
      | some cf => do
        let (_, k) ← keyOf e.readE kf
        let rev ← revocationFrom e.readE cf
        let v ← OpenPGP.verifyRevoke e.cr e.rawE k rev
        if v = .error then failed
        else do
          let id ← k.keyid e.cr
          verdict v (ascii "The certificate in \"" ++ cname ++ ascii "\" " ++ (if v = .yes then ascii "revokes" else ascii "does not revoke") ++
            ascii " key in \"" ++ kname ++ ascii "\" (" ++ hexlify id ++ ascii ").")⟩

/-- `verify-timestamp` (verify_timestamp.h:34-84). -/
def verifyTimestamp : Module :=
  ⟨ascii "verify-timestamp", [ascii "key", ascii "signature"], [], [], fun p => do
    let kname ← p.arg "key"
    match e.files kname with
    | none => failed
    | some kf => do
      let sname ← p.arg "signature"
      match e.files sname with
      | none => failed
      | some sf => do
        let (_, k) ← keyOf e.readE kf
        let s ← detachedFrom e.readE sf
        let v ← OpenPGP.verifyTimestamp e.cr e.rawE k s
        if v = .error then failed
        else do
          let id ← k.keyid e.cr
          verdict v (ascii "Timestamp signature in \"" ++ sname ++ ascii "\" was" ++ notUnless v ++ signedBy kname id)⟩

/-- `show` of a packet. -/
def showPkt : Pkt E → Out (List Act) := Pkt.acts e.shown e.showE (showCompressed e.shown e.showE e.z e.readE e.depth)

/-- `list` (list.h:34-74). The constructor throws already if the key is not meaningful. -/
def list : Module :=
  ⟨ascii "list", [ascii "key-file"], [], [], fun p => do
    let name ← p.arg "key-file"
    match e.files name with
    | none => failed
    | some f => do
      let (_, k) ← keyOf e.readE f
      let _ ← k.meaningful
      let text ← listKeys e.cr e.date k 0 4
      return ⟨0, text⟩⟩

/-- `show` (show.h:34-67) with `operator<<` (PGP.cpp:618-620). -/
def «show» : Module :=
  ⟨ascii "show", [ascii "file"], [], [], fun p => do
    let name ← p.arg "file"
    match e.files name with
    | none => failed
    | some f => do
      let o ← pgpRead (Pkt.parse e.readE) .fresh f
      let text ← showText (showPkt e) o.packets 0 4
      return ⟨0, text.1⟩⟩

/-- `show-cleartext-signature` (show_cleartext_signature.h:34-68). The message about a file that cannot be opened asks for an argument that
does not exist. -/
def showCleartextSignature : Module :=
  ⟨ascii "show-cleartext-signature", [ascii "file"], [], [], fun p => do
    let name ← p.arg "file"
    match e.files name with
    | none => do
      let _ ← p.arg "filename"
      failed
    | some f => do
      let o ← cleartextOf (Pkt.parse e.readE) f
      let text ← showCleartext (showPkt e) o 0 4
      printed text⟩

/-- The configuration the arguments of `generate-keypair` ask for (generate_keypair.h:77-142). `none` is `return -1`. The messages about the
two public key algorithms ask for arguments that do not exist. -/
def keypairConfig (p : Parsed) : Out (Option KeyConfig) := do
  let ppka ← p.arg "--ppka"
  match pkaNumbers.lookup ppka with
  | none => do
    let _ ← p.arg "--pka"
    return none
  | some ppka => do
  let psym ← p.arg "--psym"
  match symNumbers.lookup psym with
  | none => return none
  | some psym => do
  let phash ← p.arg "--phash"
  match hashNumbers.lookup phash with
  | none => return none
  | some phash => do
  let psig ← p.arg "--psig"
  match hashNumbers.lookup psig with
  | none => return none
  | some psig => do
  let spka ← p.arg "--spka"
  match pkaNumbers.lookup spka with
  | none => do
    let _ ← p.arg "--ska"
    return none
  | some spka => do
  let ssym ← p.arg "--ssym"
  match symNumbers.lookup ssym with
  | none => return none
  | some ssym => do
  let shash ← p.arg "--shash"
  match hashNumbers.lookup shash with
  | none => return none
  | some shash => do
  let ssig ← p.arg "--ssig"
  match hashNumbers.lookup ssig with
  | none => return none
  | some ssig => do
  let pass ← p.arg "-p"
  let pbits ← p.arg "--pkeysize"
  let user ← p.arg "-u"
  let comment ← p.arg "-c"
  let email ← p.arg "-e"
  let sbits ← p.arg "--skeysize"
  return some ⟨pass, ppka, strtoul pbits, psym, phash, [⟨user, comment, email, psig⟩], [⟨spka, strtoul sbits, ssym, shash, ssig⟩]⟩

/-- What `generate-keypair` does (generate_keypair.h:73-167): the value returned, what is printed, and the files written with their
contents, in the order they are opened in. A file that has been opened and not written to is empty. -/
def keypairRun (p : Parsed) : Out (Ran × List (Bytes × Bytes)) := do
  match ← keypairConfig p with
  | none => return (⟨-1, []⟩, [])
  | some c => do
    let pri ← generateKey e.cr e.rawE c e.now e.genRand e.genNonces e.genSubs
    let good ← pri.meaningful
    if !good then return (⟨-1, []⟩, [])
    else do
      let pub ← pri.getPublic
      let prefix_ ← p.arg "-o"
      let pubName := prefix_ ++ ascii ".public"
      let priName := prefix_ ++ ascii ".private"
      if !e.canWrite pubName then return (⟨-1, []⟩, [])
      else if !e.canWrite priName then return (⟨-1, []⟩, [(pubName, [])])
      else do
        let a ← p.flag "-a"
        let pubText ← writeKey e.rawE versionCc pub (armorOf a)
        let priText ← writeKey e.rawE versionCc pri (armorOf a)
        return (⟨0, ascii "Keys written to '" ++ pubName ++ ascii "' and '" ++ priName ++ ascii "'." ++ [10]⟩, [(pubName, pubText), (priName, priText)])

/-- `generate-keypair` (generate_keypair.h:37-169). -/
def generateKeypair : Module :=
  ⟨ascii "generate-keypair", [],
    [(ascii "-o", ascii "key"), (ascii "-p", []), (ascii "-u", []), (ascii "-c", []), (ascii "-e", []),
     (ascii "--ppka", ascii "RSA_ENCRYPT_OR_SIGN"), (ascii "--pkeysize", ascii "2048"), (ascii "--psym", ascii "AES256"), (ascii "--phash", ascii "SHA1"),
     (ascii "--psig", ascii "SHA1"), (ascii "--spka", ascii "RSA_ENCRYPT_OR_SIGN"), (ascii "--skeysize", ascii "2048"), (ascii "--ssym", ascii "AES256"),
     (ascii "--shash", ascii "SHA1"), (ascii "--ssig", ascii "SHA1")], [(ascii "-a", true)], fun p => do
    let r ← keypairRun e p
    return r.1⟩

/-- The files `generate-keypair` writes when called with these arguments. -/
def keypairFiles (argv : List Bytes) : Out (List (Bytes × Bytes)) :=
  match (generateKeypair e).parse argv with
  | .error _ => .ok []
  | .ok p => do
    let r ← keypairRun e p
    return r.2

/-- `module::ordered` (modules.h:65-95). -/
def ordered : List Module :=
  [list e, fingerprint e, «show» e, showCleartextSignature e, extractPublic e,
   encryptPka e, encryptSym e, decryptPka e, decryptSym e, generateKeypair e, generateRevokeKeyCert e, generateRevokeSubkeyCert e,
   generateRevokeUidCert e, revokeWithCert e, revokePrimaryKey e, revokeSubkey e, revokeUid e, signCleartextSignature e, signDetachedSignature e,
   signFile e, signPrimaryKey e, signSubkey e, signTimestamp e, verifyCleartextSignature e, verifyDetachedSignature e, verifyFile e, verifyPrimaryKey e,
   verifyRevoke e, verifyTimestamp e]

end Commands
end OpenPGP.Cli
