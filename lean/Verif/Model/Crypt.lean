import Verif.Model.Message
import Verif.Model.Pkcs1
import Verif.Model.Pka

/-!
# Messages, `src/encrypt.cpp` and `src/decrypt.cpp`: the parts that need no OpenPGP key

`Encrypt::data`, `Encrypt::sym`, `Decrypt::data` and `Decrypt::sym`. Random octets are arguments. zlib and bzip2 are an
arbitrary `Zip`.
-/
namespace OpenPGP

/-- The compression libraries (`zlib_compress`, `bz2_compress`, ...), which may throw. -/
structure Zip where
  deflate : UInt8 → Bytes → Out Bytes
  inflate : UInt8 → Bytes → Out Bytes

/-- Compressing these octets with this algorithm works and is undone by decompressing. C54 says when that is so. -/
def Zip.Undoes (z : Zip) (alg : UInt8) (src : Bytes) : Prop :=
  ∃ c, z.deflate alg src = .ok c ∧ c ≠ [] ∧ z.inflate alg c = .ok src

/-- `Compression::compress` (Compress.cpp:12-39). -/
def compress (z : Zip) (alg : UInt8) (src : Bytes) : Out Bytes :=
  if alg ≠ 0 ∧ src ≠ [] then
    if alg = 1 ∨ alg = 2 ∨ alg = 3 then z.deflate alg src else .throw
  else .ok src

/-- `Compression::decompress` (Compress.cpp:41-67). -/
def decompress (z : Zip) (alg : UInt8) (src : Bytes) : Out Bytes :=
  if alg ≠ 0 ∧ src ≠ [] then
    if alg = 1 ∨ alg = 2 ∨ alg = 3 then z.inflate alg src else .throw
  else .ok src

/-- A `Message` object: the emptied compressed-data packet it was unpacked from (header format, partial flag, algorithm),
if any, and the packets. Armor headers are not modelled here. -/
structure Msg (E : Type) where
  comp : Option (Fmt × Bool × UInt8)
  packets : List (Pkt E)
  deriving DecidableEq, Repr

namespace Msg
variable {E : Type}

/-- `Message()` (Message.cpp:139-144). -/
def empty : Msg E := ⟨none, []⟩

/-- `Message::meaningful` (Message.cpp:371-377). -/
def meaningful (m : Msg E) : Out Bool := messageMeaningful (m.packets.map (·.body.tag))

/-- `Message::read_raw` with `Message::decompress` (Message.cpp:116-137, 192-205), which call each other: a single
compressed-data packet is unpacked and its contents read. `depth` bounds the nesting (the stack); the check of
`meaningful` behind the inner call repeats the one the inner call ended with. -/
def readLoop (z : Zip) (readE : Bytes → Out E) : (depth : Nat) → Option (Fmt × Bool × UInt8) → Bytes → Out (Msg E)
  | 0, _, _ => .diverge
  | depth + 1, comp, data => do
    let ps ← readRaw (Pkt.parse readE) data
    let good ← messageMeaningful (ps.map (·.body.tag))
    if !good then .throw
    else match ps with
      | [⟨fmt, part, .compressed alg d⟩] => do
        let inner ← decompress z alg d
        readLoop z readE depth (some (fmt, part, alg)) inner
      | _ => .ok ⟨comp, ps⟩

/-- `Message::read_raw` on a new object (Message.cpp:192-205). -/
def readRaw (z : Zip) (readE : Bytes → Out E) (depth : Nat) (data : Bytes) : Out (Msg E) := readLoop z readE depth none data

/-- `Message::raw` without a status argument (Message.cpp:227-239). -/
def raw (z : Zip) (rawE : E → Bytes) (m : Msg E) : Out Bytes := do
  let out ← writeRaw (Pkt.write rawE) m.packets
  match m.comp with
  | none => return out
  | some (fmt, part, alg) => do
    let d ← compress z alg out
    Pkt.write rawE ⟨fmt, part, .compressed alg d⟩

end Msg

/-- `Encrypt::Args` (encrypt.h:44-72) without the signer, which `encryptData` gets as the signed message. -/
structure EncArgs where
  filename : Bytes
  data : Bytes
  sym : UInt8
  comp : UInt8
  mdc : Bool
  hash : UInt8
  deriving DecidableEq, Repr

/-- `Encrypt::Args::valid` (encrypt.h:74-91) with the keys of `Sym::NAME` (Encryptions.h:85-111), `Compression::NAME`
(Compress.h:58-74) and `Hash::NAME` (Hashes.h:75-99). -/
def EncArgs.valid (a : EncArgs) : Bool :=
  (decide (a.sym ≤ 13) || decide (100 ≤ a.sym ∧ a.sym ≤ 110)) && (decide (a.comp ≤ 3) || decide (100 ≤ a.comp ∧ a.comp ≤ 110)) &&
    (decide (1 ≤ a.hash ∧ a.hash ≤ 11) || decide (100 ≤ a.hash ∧ a.hash ≤ 110))

section
variable {E : Type} (cr : Crypto) (z : Zip) (rawE : E → Bytes) (readE : Bytes → Out E)

/-- The literal packet of `Encrypt::data` (encrypt.cpp:29-36). -/
def EncArgs.literal (a : EncArgs) : Pkt E := ⟨.new, false, .literal ⟨0x62, a.filename, 0, a.data⟩⟩

/-- The octets to encrypt when there is no signer (encrypt.cpp:28-47). -/
def EncArgs.plain (a : EncArgs) : Out Bytes := do
  let lit ← Pkt.write rawE (EncArgs.literal (E := E) a)
  if a.comp ≠ 0 then do
    let d ← compress z a.comp lit
    Pkt.write rawE ⟨.new, false, .compressed a.comp d⟩
  else return lit

/-- `prefix += prefix.substr(prefix.size() - 2, 2)` (encrypt.cpp:52). -/
def encPrefix (rand : Bytes) : Out Bytes := do
  let two ← substr rand (subSz rand.length 2) 2
  return rand ++ two

/-- The encrypted packet for given octets and prefix (encrypt.cpp:54-71). -/
def encPacket (sym : UInt8) (mdc : Bool) (plain prefix_ key : Bytes) : Out (Pkt E) :=
  if mdc then do
    let h ← hashUse cr 2 (prefix_ ++ plain ++ [0xd3, 0x14])
    let m ← Pkt.write rawE ⟨.new, false, .mdc h⟩
    let d ← usePgpCfbEncrypt cr sym 18 (plain ++ m) key prefix_
    return ⟨.new, false, .seip 1 d⟩
  else do
    let d ← usePgpCfbEncrypt cr sym 9 plain key prefix_
    return ⟨.new, false, .symEnc d⟩

/-- `Encrypt::data` (encrypt.cpp:6-73) without a signer; `none` is a null pointer. `rand` is what
`rand_bytes(block length)` returns, a string of that length; an argument of another length is no run of the program. -/
def encryptData (a : EncArgs) (rand key : Bytes) : Out (Option (Pkt E)) :=
  if !a.valid then .ok none
  else do
    let plain ← a.plain z rawE
    let bs ← mapAt (blockLen a.sym)
    if rand.length ≠ bs then .diverge
    else do
      let p ← encPrefix rand
      let e ← encPacket cr rawE a.sym a.mdc plain p key
      return some e

/-- `Encrypt::sym` (encrypt.cpp:155-190); `salt` is `rand_bytes(8)`. -/
def encryptSym (a : EncArgs) (salt rand pass : Bytes) (keyHash : UInt8) : Out (Msg E) :=
  if !a.valid then .ok .empty
  else if salt.length ≠ 8 then .diverge
  else do
    let t ← Tag3.setS2K ⟨4, a.sym, none, none⟩ (some (.iterated keyHash salt 96))
    let sk ← t.getSessionKey cr pass
    let key ← substr sk 1 (subSz sk.length 1)
    match ← encryptData cr z rawE a rand key with
    | none => return .empty
    | some e => return ⟨none, [⟨.new, false, .skesk t⟩, e]⟩

/-- The octets of the first encrypted packet of a list and the kind of the packet (decrypt.cpp:21-44); `none` when there is
no such packet. -/
def firstEncrypted : List (Pkt E) → Option (Nat × Bytes)
  | [] => none
  | ⟨_, _, .symEnc d⟩ :: _ => some (9, d)
  | ⟨_, _, .seip _ d⟩ :: _ => some (18, d)
  | _ :: ps => firstEncrypted ps

/-- What `Decrypt::data` does with the decrypted octets (decrypt.cpp:57-73): `none` when the modification detection code
does not match. -/
def stripDecrypted (bs tag : Nat) (data : Bytes) : Out (Option Bytes) := do
  if tag = 18 then
    let checksum ← substr data (subSz data.length 20) 20
    let data ← substr data 0 (subSz data.length 20)
    let h ← hashUse cr 2 data
    if h ≠ checksum then return none
    else
      let data ← substr data 0 (subSz data.length 2)
      let data ← substr data (bs + 2) (subSz (subSz data.length bs) 2)
      return some data
  else
    let data ← substr data (bs + 2) (subSz (subSz data.length bs) 2)
    return some data

/-- `Decrypt::data` (decrypt.cpp:13-75). -/
def decryptData (depth : Nat) (sym : UInt8) (m : Msg E) (key : Bytes) : Out (Msg E) := do
  let good ← m.meaningful
  if !good then return .empty
  else match firstEncrypted m.packets with
    | none => return .empty
    | some (tag, d) =>
      if d = [] then return .empty
      else do
        let d ← usePgpCfbDecrypt cr sym tag d key
        let bs ← mapAt (blockLen sym)
        match ← stripDecrypted cr bs tag d with
        | none => return .empty
        | some d => Msg.readRaw z readE depth d

/-- The first symmetric-key session key packet of a list (decrypt.cpp:187-194). -/
def firstSkesk : List (Pkt E) → Option Tag3
  | [] => none
  | ⟨_, _, .skesk t⟩ :: _ => some t
  | _ :: ps => firstSkesk ps

/-- `Decrypt::sym` (decrypt.cpp:175-199). -/
def decryptSym (depth : Nat) (m : Msg E) (pass : Bytes) : Out (Msg E) := do
  let good ← m.meaningful
  if !good then return .empty
  else match firstSkesk m.packets with
    | none => return .empty
    | some t => do
      let sk ← t.getSessionKey cr pass
      let s ← charAt sk 0
      let key ← substr sk 1 (subSz sk.length 1)
      decryptData cr z readE depth s m key

end
end OpenPGP
