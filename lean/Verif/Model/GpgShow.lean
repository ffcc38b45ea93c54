import Verif.Model.Gpg
import Verif.Model.Show

/-!
# What `show` prints with `GPG_COMPATIBLE`
-/
namespace OpenPGP

/-- `PKA::NAME` (PKAs.h:68-95) in that build. -/
def gpgPkaNames : List (Nat × String) :=
  [(1, "RSA (Encrypt or Sign)"), (2, "RSA Encrypt-Only"), (3, "RSA Sign-Only"), (16, "ELGAMAL (Encrypt-Only)"), (17, "DSA"), (18, "ECDH"), (19, "ECDSA"), (22, "EdDSA"),
   (20, "Reserved (formerly ELGAMAL Encrypt or Sign)"), (21, "Reserved for Diffie-Hellman (X9.42), as defined for IETF-S / MIME)")] ++
    reserved "Private/Experimental algorithm"

/-- `PKA::CURVE_NAME` (PKAs.h:118-126, 98-106). -/
def curveNames : List (Bytes × String) :=
  [(ascii "2A8648CE3D030107", "NIST P-256"), (ascii "2B81040022", "NIST P-384"), (ascii "2B81040023", "NIST P-521"), (ascii "2B2403030208010107", "brainpoolP256r1"),
   (ascii "2B240303020801010D", "brainpoolP512r1"), (ascii "2B06010401DA470F01", "Ed25519"), (ascii "2B060104019755010501", "Curve25519")]

/-- The line with the algorithm (Key.cpp:121, 126). -/
def gpgPkaLine (pka : UInt8) : Bytes := ascii "Public Key Algorithm: " ++ mapped gpgPkaNames pka.toNat ++ ascii " (pka " ++ dec pka.toNat ++ ascii ")"

/-- The two lines of an elliptic-curve key (Key.cpp:136-147); `at` throws for a curve that is not in the table. -/
def GpgKey.ecActs (label : String) (k : GpgKey) : Out (List Act) := do
  let name ← (match curveNames.lookup (hexlify k.curve true) with
    | some n => .ok n
    | none => .throw)
  let q ← vecAt k.key.mpi 0
  return [.line (ascii label ++ ascii " " ++ ascii name), .line (ascii label ++ ascii " ec point: " ++ mpitohex q)]

/-- `Key::show_common` (Key.cpp:111-156). -/
def GpgKey.acts (time : Nat → Bytes) (g : GpgKey) : Out (List Act) := do
  let k := g.key
  let head := [Act.line (ascii "Version: " ++ dec k.version.toNat ++ ascii " - " ++ if k.version < 4 then ascii "Old" else ascii "New"), .line (ascii "Creation Time: " ++ time k.time)]
  if k.version < 4 then do
    let n ← vecAt k.mpi 0
    let e ← vecAt k.mpi 1
    return head ++ [.line (ascii "Expiration Time (Days): " ++ dec k.expire)] ++ (if k.expire = 0 then [.line (ascii " (Never)")] else []) ++
      [.line (gpgPkaLine k.pka), .line (ascii "RSA n: " ++ mpitohex n ++ ascii "(" ++ dec (bitsize n) ++ ascii " bits)"), .line (ascii "RSA e: " ++ mpitohex e)]
  else if k.version = 4 then do
    let head := head ++ [.line (gpgPkaLine k.pka)]
    if isRSA k.pka then do
      let n ← vecAt k.mpi 0
      let e ← vecAt k.mpi 1
      return head ++ [mpiLine "RSA n" n, mpiLine "RSA e" e]
    else if k.pka = 16 then do
      let p ← vecAt k.mpi 0
      let g ← vecAt k.mpi 1
      let y ← vecAt k.mpi 2
      return head ++ [mpiLine "ELGAMAL p" p, mpiLine "ELGAMAL g" g, mpiLine "ELGAMAL y" y]
    else if k.pka = 19 then do
      let l ← g.ecActs "ECDSA"
      return head ++ l
    else if k.pka = 22 then do
      let l ← g.ecActs "EdDSA"
      return head ++ l
    else if k.pka = 18 then do
      let l ← g.ecActs "ECDH"
      return head ++ l
    else if k.pka = 17 then do
      let p ← vecAt k.mpi 0
      let q ← vecAt k.mpi 1
      let g ← vecAt k.mpi 2
      let y ← vecAt k.mpi 3
      return head ++ [mpiLine "DSA p" p, mpiLine "DSA q" q, mpiLine "DSA g" g, mpiLine "DSA y" y]
    else return head
  else return head

/-- `Tag5::show_private` (Tag5.cpp:59-155). The branch for EdDSA without protection asks for DSA again (Tag5.cpp:135-138), so it is never reached. -/
def GpgSec.privateActs (t : GpgSec) : Out (List Act) := do
  let pka := t.pub.key.pka
  let s2k ← (if t.s2kCon > 253 then
      match t.s2k with
      | none => .ub
      | some s => .ok ([Act.line (ascii "String-to-Key Usage Conventions: " ++ dec t.s2kCon.toNat),
          .line (ascii "Symmetric Key Algorithm: " ++ mapped symNames t.sym.toNat ++ ascii " (sym " ++ dec t.sym.toNat ++ ascii ")")] ++ s.acts ++
          (match s with
            | .simple _ => []
            | _ => [.line (ascii "IV: " ++ hexlify t.iv)]))
    else .ok [])
  if t.s2kCon ≠ 0 then do
    let what := if isRSA pka then ascii "RSA d, p, q, u" else if pka = 16 then ascii "ELGAMAL x" else if pka = 17 then ascii "DSA x"
      else if pka = 19 then ascii "ECDSA x" else if pka = 22 then ascii "EdDSA x" else if pka = 18 then ascii "ECDH x" else ascii "Unknown"
    return s2k ++ [.line (ascii "Encrypted Data (" ++ dec t.secret.length ++ ascii " octets):"), .down,
      .line (what ++ ascii " + " ++ (if t.s2kCon = 254 then ascii "SHA1 hash" else ascii "2 Octet Checksum") ++ ascii ": " ++ hexlify t.secret), .up]
  else do
    let (l, pos) ← (if isRSA pka then do
        let (d, pos) ← readMPI t.secret 0
        let (p, pos) ← readMPI t.secret pos
        let (q, pos) ← readMPI t.secret pos
        let (u, pos) ← readMPI t.secret pos
        return ([secretLine "RSA d" d, secretLine "RSA p" p, secretLine "RSA q" q, secretLine "RSA u" u], pos)
      else if pka = 16 then do
        let (x, pos) ← readMPI t.secret 0
        return ([secretLine "ELGAMAL x" x], pos)
      else if pka = 17 then do
        let (x, pos) ← readMPI t.secret 0
        return ([secretLine "DSA x" x], pos)
      else if pka = 19 then do
        let (x, pos) ← readMPI t.secret 0
        return ([secretLine "ECDSA x" x], pos)
      else if pka = 17 then do
        let (x, pos) ← readMPI t.secret 0
        return ([secretLine "EdDSA x" x], pos)
      else if pka = 18 then do
        let (x, pos) ← readMPI t.secret 0
        return ([secretLine "ECDH x" x], pos)
      else .ok ([Act.line (ascii "Unknown")], 0))
    let sum ← substr t.secret pos 2
    return s2k ++ l ++ [.line (ascii "2 Octet Checksum : " ++ hexlify sum)]

/-- `Tag5::show_contents` (Tag5.cpp:157-160). -/
def GpgSec.acts (time : Nat → Bytes) (t : GpgSec) : Out (List Act) := do
  let a ← t.pub.acts time
  let b ← t.privateActs
  return a ++ b

/-- The lines with the integers of a signature (Tag2.cpp:246-263). -/
def gpgSigActs (pka : UInt8) (mpi : List Nat) : Out (List Act) :=
  let pair (label : String) : Out (List Act) := do
    let r ← vecAt mpi 0
    let s ← vecAt mpi 1
    return [mpiLine (label ++ " r") r, mpiLine (label ++ " s") s]
  if isRSA pka then do
    let m ← vecAt mpi 0
    return [mpiLine "RSA m**d mod n" m]
  else if pka = 19 then pair "ECDSA"
  else if pka = 22 then pair "EdDSA"
  else if pka = 17 then pair "DSA"
  else .ok []

/-- `Sub33::show_contents` (Sub33.cpp:16-19). -/
def Sub33.acts (s : Sub33) : List Act :=
  [.line (ascii "Version: " ++ dec s.version.toNat ++ ascii "\n"),
   .line (ascii "Fingerprint: " ++ hexlify s.fingerprint ++ ascii " (" ++ dec s.fingerprint.length ++ ascii " octets)")]

end OpenPGP
