import Verif.Model.KeyPkt
import Verif.Model.S2K

/-!
# Secret key packets: `src/Packets/Tag5.cpp` (tag 7 inherits it)
-/
namespace OpenPGP

/-- Fields of `Packet::Tag5` (Tag5.h); a null `s2k` pointer is `none`. -/
structure Tag5 where
  key : KeyPkt
  s2kCon : UInt8
  sym : UInt8
  s2k : Option S2K
  iv : Bytes
  secret : Bytes
  deriving DecidableEq, Repr

/-- 16-bit sum of octets (Tag5.cpp:383-386, 428-431; Encrypt/Decrypt::pka use the same). -/
def octetSum (b : Bytes) : Nat := (b.foldl (fun a c => a + c.toNat) 0) % 65536

/-- `while (pos < keys.size()) out.push_back(read_MPI(keys, pos))` (Tag5.cpp:443-446). -/
def readAllMPIs (data : Bytes) : (fuel pos : Nat) → Out (List Nat)
  | 0, _ => .diverge
  | fuel + 1, pos =>
    if pos < data.length then do
      let (a, pos) ← readMPI data pos
      let l ← readAllMPIs data fuel pos
      return a :: l
    else .ok []

namespace Tag5

/-- `Tag5::Tag5(tag)` (Tag5.cpp:212-219). -/
def fresh : Tag5 := ⟨KeyPkt.fresh, 0, 0, none, [], []⟩

/-- `s2k_con` says that an S2K specifier follows. -/
def hasS2K (con : UInt8) : Bool := con == 254 || con == 255

/-- Cipher octet and specifier (Tag5.cpp:33-45): cipher, specifier, position. -/
def readProtection (data : Bytes) (con : UInt8) (pos : Nat) : Out (UInt8 × Option S2K × Nat) :=
  if hasS2K con then do
    let sym ← charAt data pos
    let (s, pos) ← S2K.read data (pos + 1)
    return (sym, some s, pos)
  else .ok (con, none, pos)

/-- Initialisation vector (Tag5.cpp:48-51). -/
def readIV (data : Bytes) (con sym : UInt8) (pos : Nat) : Out Bytes :=
  if con ≠ 0 then do
    let bs ← mapAt (blockLen sym)
    substr data pos bs
  else .ok []

/-- `Tag5::actual_read` (Tag5.cpp:25-57). -/
def actualRead (data : Bytes) (orig length : Nat) : Out (Tag5 × Nat) := do
  let (key, pos) ← KeyPkt.readCommon data orig
  let con ← charAt data pos
  let (sym, s2k, pos) ← readProtection data con (pos + 1)
  let iv ← readIV data con sym pos
  let pos := pos + iv.length
  let secret ← substr data pos (subSz length (pos - orig))
  return (⟨key, con, sym, s2k, iv, secret⟩, orig + length)

/-- `Tag5::read` as a packet at a place in the input. -/
def readAt (span : Span) : Out Tag5 := tagRead fresh actualRead span

/-- Cipher octet and specifier as written (Tag5.cpp:165-177). -/
def protectionOctets (t : Tag5) : Out Bytes :=
  if hasS2K t.s2kCon then
    match t.s2k with
    | none => .throw
    | some s => .ok ([t.sym] ++ s.raw)
  else .ok []

/-- `Tag5::actual_raw` (Tag5.cpp:162-184). -/
def raw (t : Tag5) : Out Bytes := do
  let mid ← protectionOctets t
  return t.key.rawCommon ++ [t.s2kCon] ++ mid ++ (if t.s2kCon ≠ 0 then t.iv else []) ++ t.secret

/-- `Tag5::calculate_key` (Tag5.cpp:350-368). -/
def calculateKey (cr : Crypto) (t : Tag5) (pass : Bytes) : Out Bytes :=
  if t.s2kCon = 0 then .ok []
  else if hasS2K t.s2kCon then
    match t.s2k with
    | none => .throw
    | some s => do
      let n ← mapAt (keyLen t.sym)
      s.run cr pass n
  else .ok (cr.hash 1 pass)

/-- The checksum appended by `encrypt_secret_keys` (Tag5.cpp:379-389); a null `s2k` is dereferenced. -/
def encryptChecksum (cr : Crypto) (t : Tag5) (plain : Bytes) : Out Bytes :=
  if t.s2kCon = 254 then
    match t.s2k with
    | none => .ub
    | some s => hashUse cr s.hash plain
  else .ok (be 2 (octetSum plain))

/-- `Tag5::encrypt_secret_keys` (Tag5.cpp:370-400): the packet with its new secret. -/
def encryptSecretKeys (cr : Crypto) (t : Tag5) (pass : Bytes) (keys : List Nat) : Out Tag5 := do
  let plain := writeMPIs keys
  let sum ← encryptChecksum cr t plain
  let plain := plain ++ sum
  if t.s2kCon ≠ 0 then do
    let key ← calculateKey cr t pass
    let secret ← useNormalCfbEncrypt cr t.sym plain key t.iv
    return { t with secret := secret }
  else return { t with secret := plain }

/-- The checksum calculated by `decrypt_secret_keys` (Tag5.cpp:424-434). -/
def decryptChecksum (cr : Crypto) (t : Tag5) (plain : Bytes) : Out Bytes :=
  if t.s2kCon = 254 then hashUse cr 2 plain else .ok (be 2 (octetSum plain))

/-- Checksum test and parsing in `decrypt_secret_keys` (Tag5.cpp:417-448). -/
def checkAndParse (cr : Crypto) (t : Tag5) (keys : Bytes) : Out (List Nat) := do
  let hashSize := if t.s2kCon = 254 then 20 else 2
  let given ← substr keys (subSz keys.length hashSize) hashSize
  let keys ← substr keys 0 (subSz keys.length hashSize)
  let calculated ← decryptChecksum cr t keys
  if calculated ≠ given then .ok []
  else readAllMPIs keys (keys.length + 1) 0

/-- Decryption of the secret octets (Tag5.cpp:405-415). -/
def plainSecret (cr : Crypto) (t : Tag5) (pass : Bytes) : Out Bytes :=
  if t.s2kCon ≠ 0 then do
    let key ← calculateKey cr t pass
    useNormalCfbDecrypt cr t.sym t.secret key t.iv
  else .ok t.secret

/-- `Tag5::decrypt_secret_keys` (Tag5.cpp:402-449). -/
def decryptSecretKeys (cr : Crypto) (t : Tag5) (pass : Bytes) : Out (List Nat) := do
  let plain ← plainSecret cr t pass
  checkAndParse cr t plain

/-- `Tag5::get_public_obj`, `Tag5::get_public_ptr` (Tag5.cpp:268-279; Tag7 likewise): a public key packet read from the
secret packet's octets, without checking that everything was consumed. -/
def getPublic (t : Tag5) : Out KeyPkt := do
  let r ← t.raw
  KeyPkt.readAt ⟨r, 0, r.length, false⟩ false

end Tag5
end OpenPGP
