import Verif.Model.Tag5

/-!
# The remaining packets and the packet sum type: `src/Packets/Tag1.cpp` .. `Tag63.cpp`, `src/PGP.cpp:180-267`

The `size` field of a packet (used for display only) is not modelled.
-/
namespace OpenPGP

/-- `while (pos < stop) push_back(item)`: the loops of Tag1.cpp:11-13 and Tag17.cpp:8-26. -/
def untilLoop {α : Type} (item : Nat → Out (α × Nat)) (stop : Nat) : (fuel pos : Nat) → Out (List α × Nat)
  | 0, _ => .diverge
  | fuel + 1, pos =>
    if pos < stop then do
      let (a, pos) ← item pos
      let (l, pos) ← untilLoop item stop fuel pos
      return (a :: l, pos)
    else .ok ([], pos)

/-- Fields of `Packet::Tag1` (Tag1.h): public-key encrypted session key. -/
structure Tag1 where
  version : UInt8
  keyid : Bytes
  pka : UInt8
  mpi : List Nat
  deriving DecidableEq, Repr

namespace Tag1

/-- `Tag1::Tag1()` (Tag1.cpp:81-92). -/
def fresh : Tag1 := ⟨3, [], 0, []⟩

/-- `Tag1::actual_read` (Tag1.cpp:6-14). The loop compares the absolute position with the body length. -/
def actualRead (data : Bytes) (pos length : Nat) : Out (Tag1 × Nat) := do
  let version ← charAt data pos
  let keyid ← substr data (pos + 1) 8
  let pka ← charAt data (pos + 9)
  let (mpi, pos) ← untilLoop (readMPI data) length (length + 1) (pos + 10)
  return (⟨version, keyid, pka, mpi⟩, pos)

/-- `Tag1::actual_raw` (Tag1.cpp:29-35). -/
def raw (t : Tag1) : Bytes := [3] ++ t.keyid ++ [t.pka] ++ writeMPIs t.mpi

/-- `Tag1::read` as a packet at a place in the input. -/
def readAt (span : Span) : Out Tag1 := tagRead fresh actualRead span

end Tag1

/-- Fields of `Packet::Tag3` (Tag3.h): symmetric-key encrypted session key. -/
structure Tag3 where
  version : UInt8
  sym : UInt8
  s2k : Option S2K
  esk : Option Bytes
  deriving DecidableEq, Repr

namespace Tag3

/-- `Tag3::Tag3()` (Tag3.cpp:71-76). -/
def fresh : Tag3 := ⟨4, 0, none, none⟩

/-- The encrypted session key, if octets are left (Tag3.cpp:30-32). -/
def readEsk (data : Bytes) (pos stop : Nat) : Out (Option Bytes) :=
  if pos < stop then do
    let e ← substr data pos (stop - pos)
    return some e
  else .ok none

/-- `Tag3::actual_read` (Tag3.cpp:6-35). -/
def actualRead (data : Bytes) (orig length : Nat) : Out (Tag3 × Nat) := do
  let version ← charAt data orig
  let sym ← charAt data (orig + 1)
  let (s, pos) ← S2K.read data (orig + 2)
  let esk ← readEsk data pos (orig + length)
  return (⟨version, sym, some s, esk⟩, orig + length)

/-- `Tag3::actual_raw` (Tag3.cpp:51-53). -/
def raw (t : Tag3) : Bytes :=
  [t.version, t.sym] ++ (match t.s2k with | some s => s.raw | none => []) ++
    (match t.esk with | some e => e | none => [])

/-- `Tag3::read` as a packet at a place in the input. -/
def readAt (span : Span) : Out Tag3 := tagRead fresh actualRead span

/-- `Tag3::get_session_key` (Tag3.cpp:113-122): first the cipher octet, then the session key. A null `s2k` is
dereferenced. -/
def getSessionKey (cr : Crypto) (t : Tag3) (pass : Bytes) : Out Bytes :=
  match t.s2k with
  | none => .ub
  | some s => do
    let n ← mapAt (keyLen t.sym)
    let key ← s.run cr pass n
    match t.esk with
    | some e => do
      let bs ← mapAt (blockLen t.sym)
      useNormalCfbDecrypt cr t.sym e key (List.replicate bs 0)
    | none => return t.sym :: key

/-- `Tag3::set_session_key` (Tag3.cpp:151-157). -/
def setSessionKey (cr : Crypto) (t : Tag3) (pass sk : Bytes) : Out Tag3 :=
  match t.s2k with
  | none => .ok { t with esk := none }
  | some s =>
    if sk.length > 1 then do
      let n ← mapAt (keyLen t.sym)
      let key ← s.run cr pass n
      let bs ← mapAt (blockLen t.sym)
      let e ← useNormalCfbEncrypt cr t.sym sk key (List.replicate bs 0)
      return { t with esk := some e }
    else .ok { t with esk := none }

/-- `Tag3::set_s2k` (Tag3.cpp:128-139): a null pointer and the simple kind are refused. -/
def setS2K (t : Tag3) (s : Option S2K) : Out Tag3 :=
  match s with
  | none => .throw
  | some (.simple _) => .throw
  | some s => .ok { t with s2k := some s }

end Tag3

/-- Fields of `Packet::Tag4` (Tag4.h): one-pass signature. -/
structure Tag4 where
  version : UInt8
  type : UInt8
  hash : UInt8
  pka : UInt8
  keyid : Bytes
  last : UInt8
  deriving DecidableEq, Repr

namespace Tag4

/-- `Tag4::Tag4()` (Tag4.cpp:53-64). -/
def fresh : Tag4 := ⟨3, 0, 0, 0, [], 1⟩

/-- `Tag4::set_keyid` (Tag4.cpp:98-103). -/
def checkKeyid (k : Bytes) : Out Bytes := if k.length ≠ 8 then .throw else .ok k

/-- `Tag4::actual_read` (Tag4.cpp:6-14). -/
def actualRead (data : Bytes) (pos _length : Nat) : Out (Tag4 × Nat) := do
  let version ← charAt data pos
  let type ← charAt data (pos + 1)
  let hash ← charAt data (pos + 2)
  let pka ← charAt data (pos + 3)
  let k ← substr data (pos + 4) 8
  let keyid ← checkKeyid k
  let last ← charAt data (pos + 12)
  return (⟨version, type, hash, pka, keyid, last⟩, pos + 13)

/-- `Tag4::actual_raw` (Tag4.cpp:25-27). -/
def raw (t : Tag4) : Bytes := [3, t.type, t.hash, t.pka] ++ t.keyid ++ [t.last]

end Tag4

/-- Fields of `Packet::Tag11` (Tag11.h): literal data. -/
structure Tag11 where
  format : UInt8
  filename : Bytes
  time : Nat
  literal : Bytes
  deriving DecidableEq, Repr

namespace Tag11

/-- `Tag11::Tag11` (Tag11.cpp:54-67). -/
def fresh : Tag11 := ⟨0, [], 0, []⟩

/-- `Tag11::actual_read` (Tag11.cpp:15-22). `length - 2 - len - 4` wraps. -/
def actualRead (data : Bytes) (pos length : Nat) : Out (Tag11 × Nat) := do
  let format ← charAt data pos
  let len ← charAt data (pos + 1)
  let filename ← substr data (pos + 2) len.toNat
  let t ← substr data (pos + 2 + len.toNat) 4
  let literal ← substr data (pos + 2 + len.toNat + 4) (subSz length (2 + len.toNat + 4))
  return (⟨format, filename, toint256 t % 2 ^ 32, literal⟩, pos + length)

/-- `Tag11::actual_raw` (Tag11.cpp:38-40): the length octet of the name is its size truncated to a `char`. -/
def raw (t : Tag11) : Bytes :=
  [t.format, UInt8.ofNat t.filename.length] ++ t.filename ++ be 4 t.time ++ t.literal

end Tag11

/-- A user attribute subpacket: `Subpacket::Tag17::Sub1` (Sub1.h) with the critical bit of `Subpacket::Sub`. -/
structure Attr where
  critical : Bool
  version : UInt8
  encoding : UInt8
  image : Bytes
  deriving DecidableEq, Repr

namespace Attr

/-- `Sub1::actual_read` (Sub1.cpp:11-17) on a fresh object, through `Sub::read` (Subpacket.cpp:54-59). -/
def read (d : Bytes) : Attr :=
  if d.length ≥ 16 then ⟨false, (d.drop 2).headD 0, (d.drop 3).headD 0, d.drop 16⟩ else ⟨false, 0, 0, []⟩

/-- `Sub1::raw` (Sub1.cpp:61-63): version and encoding are written as 1. -/
def raw (a : Attr) : Bytes := [0x10, 0, 1, 1] ++ List.replicate 12 0 ++ a.image

/-- `Sub::write` (Subpacket.cpp:30-40, 77-79). -/
def write (a : Attr) : Bytes :=
  let data := (if a.critical then 129 else 1) :: a.raw
  subLengthOctets data.length ++ data

/-- One pass of the loop of `Tag17::actual_read` (Tag17.cpp:9-25); only type 1 is known, and the critical bit is not
masked out. -/
def readItem (data : Bytes) (pos : Nat) : Out (Attr × Nat) := do
  let (len, pos) ← readSubLength data pos
  let type ← charAt data pos
  if type ≠ 1 then .throw
  else do
    let d ← substr data (pos + 1) (subSz len 1)
    return (Attr.read d, pos + len)

/-- `Tag17::actual_read` (Tag17.cpp:6-27). The loop compares the absolute position with the body length. -/
def readList (data : Bytes) (pos length : Nat) : Out (List Attr × Nat) :=
  untilLoop (readItem data) length (length + 1) pos

/-- `Tag17::actual_raw` (Tag17.cpp:35-41). -/
def rawList (l : List Attr) : Bytes := l.flatMap write

end Attr

/-- The packet classes. `priv n` is Tag60 .. Tag63 (`n < 4`). -/
inductive Body (E : Type) where
  | pkesk (t : Tag1)
  | sig (s : Tag2 E)
  | skesk (t : Tag3)
  | onePass (t : Tag4)
  | secretKey (t : Tag5)
  | publicKey (k : KeyPkt)
  | secretSubkey (t : Tag5)
  | compressed (comp : UInt8) (data : Bytes)
  | symEnc (data : Bytes)
  | marker (pgp : Bytes)
  | literal (t : Tag11)
  | trust (t : Bytes)
  | userId (u : Bytes)
  | publicSubkey (k : KeyPkt)
  | userAttr (l : List Attr)
  | seip (version : UInt8) (data : Bytes)
  | mdc (hash : Bytes)
  | priv (n : Nat) (s : Bytes)
  deriving DecidableEq, Repr

namespace Body
variable {E : Type}

/-- `get_tag()` of each class (Packet.h:48-66). -/
def tag : Body E → Nat
  | pkesk _ => 1 | sig _ => 2 | skesk _ => 3 | onePass _ => 4 | secretKey _ => 5 | publicKey _ => 6
  | secretSubkey _ => 7 | compressed _ _ => 8 | symEnc _ => 9 | marker _ => 10 | literal _ => 11 | trust _ => 12
  | userId _ => 13 | publicSubkey _ => 14 | userAttr _ => 17 | seip _ _ => 18 | mdc _ => 19 | priv n _ => 60 + n

/-- `raw()` of each class (Tag1.cpp:29, Tag2.cpp:264, Tag3.cpp:51, Tag4.cpp:25, Tag5.cpp:162, Key.cpp:190, Tag8.cpp:43,
Tag9.cpp:19, Tag10.cpp:17, Tag11.cpp:38, Tag12.cpp:15, Tag13.cpp:15, Tag17.cpp:35, Tag18.cpp:21, Tag19.cpp:15,
Tag60.cpp:15 ..). -/
def raw (rawE : E → Bytes) : Body E → Out Bytes
  | pkesk t => .ok t.raw
  | sig s => .ok (s.raw rawE)
  | skesk t => .ok t.raw
  | onePass t => .ok t.raw
  | secretKey t => t.raw
  | publicKey k => .ok k.rawCommon
  | secretSubkey t => t.raw
  | compressed c d => .ok (c :: d)
  | symEnc d => .ok d
  | marker p => .ok p
  | literal t => .ok t.raw
  | trust t => .ok t
  | userId u => .ok u
  | publicSubkey k => .ok k.rawCommon
  | userAttr l => .ok (Attr.rawList l)
  | seip v d => .ok (v :: d)
  | mdc h => .ok h
  | priv _ s => .ok s

/-- `set(data.substr(pos, length)); pos += length` (Tag9.cpp:6-9, Tag10.cpp:8-11, Tag12.cpp:6-9, Tag13.cpp:6-9,
Tag19.cpp:6-9, Tag60.cpp:6-9 ..). -/
def readString (data : Bytes) (pos length : Nat) : Out (Bytes × Nat) := do
  let s ← substr data pos length
  return (s, pos + length)

/-- One octet and a string (Tag8.cpp:17-23, Tag18.cpp:6-10). -/
def readOctetString (data : Bytes) (pos length : Nat) : Out ((UInt8 × Bytes) × Nat) := do
  let c ← charAt data pos
  let s ← substr data (pos + 1) (subSz length 1)
  return ((c, s), pos + length)

/-- The packet-specific part of `read_packet_raw` (PGP.cpp:188-266): the object for the tag, then `Tag::read`. A reader
for other tags is never reached (`knownTag`); `Tag0` throws (Tag0.cpp:20-24). -/
def parse (readE : Bytes → Out E) (tag : Nat) (span : Span) : Out (Body E) :=
  match tag with
  | 1 => pkesk <$> Tag1.readAt span
  | 2 => sig <$> Tag2.readAt readE span
  | 3 => skesk <$> Tag3.readAt span
  | 4 => onePass <$> tagRead Tag4.fresh Tag4.actualRead span
  | 5 => secretKey <$> Tag5.readAt span
  | 6 => publicKey <$> KeyPkt.readAt span
  | 7 => secretSubkey <$> Tag5.readAt span
  | 8 => (fun x => compressed x.1 x.2) <$> tagRead (0, []) readOctetString span
  | 9 => symEnc <$> tagRead [] readString span
  | 10 => marker <$> tagRead [80, 71, 80] readString span
  | 11 => literal <$> tagRead Tag11.fresh Tag11.actualRead span
  | 12 => trust <$> tagRead [] readString span
  | 13 => userId <$> tagRead [] readString span
  | 14 => publicSubkey <$> KeyPkt.readAt span
  | 17 => userAttr <$> tagRead [] Attr.readList span
  | 18 => (fun x => seip x.1 x.2) <$> tagRead (1, []) readOctetString span
  | 19 => mdc <$> tagRead [] readString span
  | 60 => priv 0 <$> tagRead [] readString span
  | 61 => priv 1 <$> tagRead [] readString span
  | 62 => priv 2 <$> tagRead [] readString span
  | 63 => priv 3 <$> tagRead [] readString span
  | _ => .throw

end Body

/-- A packet object: header format, `partial` flag (only meaningful for tags 8, 9, 11 and 18) and contents. -/
structure Pkt (E : Type) where
  fmt : Fmt
  part : Bool
  body : Body E
  deriving DecidableEq, Repr

namespace Pkt
variable {E : Type}

/-- `read_packet_raw` (PGP.cpp:180-267) behind the checks of `readPacket`. -/
def parse (readE : Bytes → Out E) (tag : Nat) (fmt : Fmt) (span : Span) : Out (Pkt E) := do
  let b ← Body.parse readE tag span
  return ⟨fmt, span.part, b⟩

/-- `Tag::write` (Packet.cpp:127-133, 63-70; Tag8.cpp:72-78, Tag9.cpp:47-53, Tag11.cpp:69-75, Tag18.cpp:49-55) without a
status argument. -/
def write (rawE : E → Bytes) (p : Pkt E) : Out Bytes := do
  let r ← p.body.raw rawE
  writePacket p.fmt p.body.tag p.part r

end Pkt

end OpenPGP
