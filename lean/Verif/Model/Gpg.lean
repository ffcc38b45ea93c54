import Verif.Model.KeyPkt
import Verif.Model.Includes
import Verif.Model.Keygen
import Verif.Model.Tag5
import Verif.Model.Pka
import Verif.Model.Strings

/-!
# What `GPG_COMPATIBLE` adds

With the build option `GPG_COMPATIBLE` key packets of elliptic-curve algorithms are read and written, signatures have the subpacket with the issuer's
fingerprint, and RSA keys come in the sizes GnuPG takes. Everything else in this development is about the build without it.
-/
namespace OpenPGP

/-- `CURVE_OID_LENGTH` (PKAs.h:98-105, 128-136). -/
def curveLengths : List (Bytes × Nat) :=
  [(ascii "2A8648CE3D030107", 8), (ascii "2B81040022", 5), (ascii "2B81040023", 5), (ascii "2B2403030208010107", 9),
   (ascii "2B240303020801010D", 9), (ascii "2B06010401DA470F01", 9), (ascii "2B060104019755010501", 10)]

/-- The members of a key packet (Key.h) in that build. -/
structure GpgKey where
  key : KeyPkt
  curve : Bytes
  kdfSize : UInt8
  kdfHash : UInt8
  kdfAlg : UInt8
  deriving DecidableEq, Repr

namespace GpgKey

/-- `Key::Key` (Key.cpp:6-19). -/
def fresh : GpgKey := ⟨.fresh, [], 0, 0, 0⟩

/-- The curve and the point (Key.cpp:80-84, 87-91, 94-97). -/
def readPoint (data : Bytes) (pos : Nat) : Out (Bytes × Nat × Nat) := do
  let dim ← charAt data pos
  let curve ← substr data (pos + 1) dim.toNat
  let (q, pos) ← readMPI data (pos + (dim.toNat + 1))
  return (curve, q, pos)

/-- `Key::read_common` (Key.cpp:45-109) on a fresh packet. -/
def readCommon (data : Bytes) (pos : Nat) : Out (GpgKey × Nat) := do
  let version ← charAt data pos
  let t ← substr data (pos + 1) 4
  let time := toint256 t % 2 ^ 32
  if version < 4 then do
    let a ← charAt data (pos + 5)
    let b ← charAt data (pos + 6)
    let pka ← charAt data (pos + 7)
    let (mpi, pos) ← readMPIs data 2 (pos + 8)
    return (⟨⟨version, time, pka, mpi, KeyPkt.expireOf a b⟩, [], 0, 0, 0⟩, pos)
  else if version = 4 then do
    let pka ← charAt data (pos + 5)
    match KeyPkt.mpiCount pka with
    | some n => do
      let (mpi, pos) ← readMPIs data n (pos + 6)
      return (⟨⟨version, time, pka, mpi, 0⟩, [], 0, 0, 0⟩, pos)
    | none =>
      if pka = 19 ∨ pka = 22 then do
        let (curve, q, pos) ← readPoint data (pos + 6)
        return (⟨⟨version, time, pka, [q], 0⟩, curve, 0, 0, 0⟩, pos)
      else if pka = 18 then do
        let (curve, q, pos) ← readPoint data (pos + 6)
        let size ← charAt data pos
        let hash ← charAt data (pos + 2)
        let alg ← charAt data (pos + 3)
        return (⟨⟨version, time, pka, [q], 0⟩, curve, size, hash, alg⟩, pos + 4)
      else .throw
  else return (⟨⟨version, time, 0, [], 0⟩, [], 0, 0, 0⟩, pos)

/-- `Key::raw_common` (Key.cpp:158-188): the length of the identifier comes from the table, which throws for other curves. -/
def rawCommon (k : GpgKey) : Out Bytes := do
  let curve ← (if k.key.pka = 19 ∨ k.key.pka = 22 ∨ k.key.pka = 18 then
      match curveLengths.lookup (hexlify k.curve true) with
      | some n => .ok (UInt8.ofNat n :: k.curve)
      | none => .throw
    else .ok [])
  return [k.key.version] ++ be 4 k.key.time ++ (if k.key.version < 4 then be 2 k.key.expire else []) ++ [k.key.pka] ++ curve ++
    writeMPIs k.key.mpi ++ (if k.key.pka = 18 then [k.kdfSize, 1, k.kdfHash, k.kdfAlg] else [])

/-- `Key::actual_read` through `Tag::read` (Key.cpp:21-23). -/
def readAt (span : Span) : Out GpgKey := tagRead fresh (fun d p _ => readCommon d p) span

/-- `Key::get_fingerprint` (Key.cpp:227-244). -/
def fingerprint (cr : Crypto) (k : GpgKey) : Out Bytes :=
  if k.key.version < 4 then .ok (cr.hash 1 (k.key.mpi.flatMap fun m => (mpiOctets m).drop 2))
  else if k.key.version = 4 then do
    let raw ← k.rawCommon
    return cr.hash 2 ([0x99] ++ be 2 raw.length ++ raw)
  else .throw

end GpgKey

/-- `PKA::can_encrypt`, `PKA::can_sign` (PKAs.cpp:6-31). -/
def gpgCanEncrypt (alg : UInt8) : Bool := alg = 1 || alg = 2 || alg = 16 || alg = 18
def gpgCanSign (alg : UInt8) : Bool := alg = 1 || alg = 3 || alg = 17 || alg = 19 || alg = 22

/-- The integers of a version 4 signature (Tag2.cpp:167-173). -/
def gpgReadSigMpi (pka : UInt8) (data : Bytes) (pos : Nat) : Out (List Nat × Nat) :=
  readMPIs data (if pka = 17 ∨ pka = 19 ∨ pka = 22 then 2 else 1) pos

/-- `Subpacket::Tag2::Sub33` (Sub33.cpp): version and fingerprint. -/
structure Sub33 where
  version : UInt8
  fingerprint : Bytes
  deriving DecidableEq, Repr

namespace Sub33

/-- `Sub33::actual_read` (Sub33.cpp:9-14) on a new object, `size` being the number of octets (Subpacket.cpp:54-59). -/
def read : Bytes → Sub33
  | [] => ⟨0, []⟩
  | v :: f => ⟨v, f.take ((v :: f).length - 1)⟩

/-- `Sub33::raw` (Sub33.cpp:46-48). -/
def raw (s : Sub33) : Bytes := [s.version] ++ s.fingerprint

/-- `Sub33::actual_valid` (Sub33.cpp:21-32). -/
def valid (s : Sub33) : Bool := s.fingerprint.length = 20

end Sub33

/-- The loop for the primes (RSA.cpp:21-30): two numbers of `bits - 1` bits are drawn per round and get a leading one. -/
def rsaPrimesGpg (np : Nat → Nat) (bits nbitsize : Nat) : List Nat → Out (Nat × Nat × List Nat)
  | a :: b :: draws =>
    let p := np (2 ^ (bits - 1) + a)
    let q := np (2 ^ (bits - 1) + b)
    if bitsize (p * q) = nbitsize ∨ bitsize (p * q) = nbitsize - 8 then .ok (p, q, draws) else rsaPrimesGpg np bits nbitsize draws
  | _ => .diverge

/-- `RSA::keygen` (RSA.cpp:7-31, 40-55), giving `n, e, d, p, q, u` or nothing. -/
def rsaKeygenGpg (np : Nat → Nat) (bits : Nat) (draws : List Nat) : Out (List Nat) :=
  let nbitsize := bits * 2 % 2 ^ 32
  if nbitsize < 1024 ∨ nbitsize % 32 ≠ 0 ∨ 4096 < nbitsize then .ok []
  else do
    let (p, q, draws) ← rsaPrimesGpg np bits nbitsize draws
    let n := p * q
    let (p, q) := if q < p then (q, p) else (p, q)
    let tot := (p - 1) * (q - 1)
    match draws with
    | [] => .diverge
    | e :: _ =>
      let e := if e % 2 = 0 then e + 1 else e
      let e ← rsaExponent tot (tot * e + 2) e
      return [n, e, invert e tot, p, q, invert p q]

/-- The keys of `PKA::NAME` (PKAs.h:68-95) in that build. -/
def gpgNamed (a : UInt8) : Bool := decide (1 ≤ a ∧ a ≤ 3) || decide (16 ≤ a ∧ a ≤ 22) || decide (100 ≤ a ∧ a ≤ 110)

/-- The sizes of the primary key (keygen.h:94-126). -/
def gpgPrimarySize (pka : UInt8) (bits : Nat) : Bool :=
  if isRSA pka then !decide (bits < 1024 ∨ 4096 < bits) && decide (bits % 32 = 0)
  else if pka = 17 then !decide (bits < 1024 ∨ 3072 < bits) && decide (bits % 64 = 0)
  else if pka = 19 ∨ pka = 22 then !decide (bits < 160 ∨ 1024 < bits)
  else false

/-- The sizes of a subkey (keygen.h:162-194). For elliptic curves it is the size `primary` of the primary key that is looked at. -/
def gpgSubkeySize (primary : Nat) (pka : UInt8) (bits : Nat) : Bool :=
  if isRSA pka then !decide (bits < 1024 ∨ 4096 < bits) && decide (bits % 32 = 0)
  else if pka = 17 ∨ pka = 16 then !decide (bits < 1024 ∨ 3072 < bits) && decide (bits % 64 = 0)
  else if pka = 19 ∨ pka = 22 ∨ pka = 18 then !decide (primary < 160 ∨ 1024 < primary)
  else false

/-- The loop over subkeys in `Config::valid` (keygen.h:153-221). -/
def gpgSubkeysValid (primary : Nat) : List SubkeyConfig → Out Bool
  | [] => .ok true
  | s :: l =>
    if !gpgNamed s.pka then .ok false
    else if !gpgSubkeySize primary s.pka s.bits then .ok false
    else if !symNamed s.sym then .ok false
    else if !hashNamed s.hash then .ok false
    else if !hashNamed s.sig then .ok false
    else do
      let short ← shortForDsa s.pka s.sig
      if short then return false else gpgSubkeysValid primary l

/-- `Config::valid` (keygen.h:83-223). -/
def KeyConfig.gpgValid (c : KeyConfig) : Out Bool :=
  if !gpgNamed c.pka then .ok false
  else if !gpgCanSign c.pka then .ok false
  else if !gpgPrimarySize c.pka c.bits then .ok false
  else if !symNamed c.sym then .ok false
  else if !hashNamed c.hash then .ok false
  else if c.uids = [] then .ok false
  else do
    let good ← usersValid c.pka c.uids
    if good then gpgSubkeysValid c.bits c.subkeys else return false

/-- A secret key packet (Tag5.h) in that build. -/
structure GpgSec where
  pub : GpgKey
  s2kCon : UInt8
  sym : UInt8
  s2k : Option S2K
  iv : Bytes
  secret : Bytes
  deriving DecidableEq, Repr

namespace GpgSec

/-- `Tag5::actual_read` (Tag5.cpp:25-57). -/
def actualRead (data : Bytes) (orig length : Nat) : Out (GpgSec × Nat) := do
  let (key, pos) ← GpgKey.readCommon data orig
  let con ← charAt data pos
  let (sym, s2k, pos) ← Tag5.readProtection data con (pos + 1)
  let iv ← Tag5.readIV data con sym pos
  let pos := pos + iv.length
  let secret ← substr data pos (subSz length (pos - orig))
  return (⟨key, con, sym, s2k, iv, secret⟩, orig + length)

/-- `Tag5::read` (Packet.cpp:89-100). -/
def readAt (span : Span) : Out GpgSec := tagRead ⟨.fresh, 0, 0, none, [], []⟩ actualRead span

/-- `Tag5::actual_raw` (Tag5.cpp:162-184). -/
def raw (t : GpgSec) : Out Bytes := do
  let common ← t.pub.rawCommon
  let mid ← (if Tag5.hasS2K t.s2kCon then
      match t.s2k with
      | none => .throw
      | some s => .ok ([t.sym] ++ s.raw)
    else .ok [])
  return common ++ [t.s2kCon] ++ mid ++ (if t.s2kCon ≠ 0 then t.iv else []) ++ t.secret

/-- `Tag5::get_public_obj`, `Tag5::get_public_ptr` (Tag5.cpp:268-279). -/
def getPublic (t : GpgSec) : Out GpgKey := do
  let r ← t.raw
  tagRead GpgKey.fresh (fun d p _ => GpgKey.readCommon d p) ⟨r, 0, r.length, false⟩ false

/-- `Tag5::decrypt_secret_keys` (Tag5.cpp:402-449): nothing of the public part is used. -/
def decryptSecretKeys (cr : Crypto) (t : GpgSec) (pass : Bytes) : Out (List Nat) :=
  Tag5.decryptSecretKeys cr ⟨t.pub.key, t.s2kCon, t.sym, t.s2k, t.iv, t.secret⟩ pass

end GpgSec

end OpenPGP
