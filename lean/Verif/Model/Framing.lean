import Verif.Model.Includes

/-!
# Packet framing: `src/Misc/Length.cpp`, `src/PGP.cpp` (56-178, 269-288, 469-483), `src/Packets/Packet.cpp`
-/
namespace OpenPGP

/-- `Packet::HeaderFormat`. -/
inductive Fmt where
  | old
  | new
  deriving DecidableEq, Repr

/-! ## Writing -/

/-- The octet count actually used by `write_old_length` (Length.cpp:46-61): requests that do not fit or make no
sense fall back to 0 (default). -/
def oldOctets (length octets : Nat) : Nat :=
  if octets = 1 then (if length > 255 then 0 else octets)
  else if octets = 2 then (if length > 65535 then 0 else octets)
  else if octets = 3 ∨ octets = 4 ∨ octets > 5 then 0 else octets

/-- Header of `write_old_length` (Length.cpp:39-87); `part` is `PARTIAL`. -/
def oldHeader (tag length : Nat) (part : Bool) (octets : Nat) : Bytes :=
  let ctb := UInt8.ofNat (0x80 ||| (tag <<< 2))
  if part then [ctb ||| 3]
  else
    let octets := oldOctets length octets
    if octets = 1 ∨ (octets = 0 ∧ length < 256) then [ctb, UInt8.ofNat length]
    else if octets = 2 ∨ (octets = 0 ∧ 256 ≤ length ∧ length < 65536) then (ctb ||| 1) :: be 2 length
    else if octets = 5 ∨ (octets = 0 ∧ 65536 ≤ length) then (ctb ||| 2) :: be 4 length
    else [ctb]

/-- `write_old_length` (Length.cpp:39-87). -/
def writeOldLength (tag : Nat) (data : Bytes) (part : Bool := false) (octets : Nat := 0) : Bytes :=
  oldHeader tag data.length part octets ++ data

/-- The octet count actually used by `write_new_length` (Length.cpp:126-141). -/
def newOctets (length octets : Nat) : Nat :=
  if octets = 1 then (if length > 191 then 0 else octets)
  else if octets = 2 then (if length > 8382 then 0 else octets)
  else if octets = 3 ∨ octets = 4 ∨ octets > 5 then 0 else octets

/-- Body length octets of `write_new_length`, not partial (Length.cpp:126-162).  `length -= 0xc0` wraps
(`subSz`) when two octets were requested for a length below 192. -/
def newLengthOctets (length : Nat) (octets : Nat) : Bytes :=
  let octets := newOctets length octets
  if octets = 1 ∨ (octets = 0 ∧ length ≤ 191) then [UInt8.ofNat length]
  else if octets = 2 ∨ (octets = 0 ∧ 192 ≤ length ∧ length ≤ 8383) then
    [UInt8.ofNat (subSz length 0xc0 / 256 + 0xc0), UInt8.ofNat (subSz length 0xc0)]
  else if octets = 5 ∨ (octets = 0 ∧ length > 8383) then 0xff :: be 4 length
  else []

/-- `write_new_length(.., NOT_PARTIAL, octets)` (Length.cpp:91-93, 125-168). -/
def writeNewDefinite (tag : Nat) (data : Bytes) (octets : Nat := 0) : Bytes :=
  UInt8.ofNat (0xc0 ||| tag) :: (newLengthOctets data.length octets ++ data)

/-- The set bits 9..30 of a length, highest first (Length.cpp:105-111). -/
def setBits (length : Nat) : List Nat :=
  ((List.range 22).map (· + 9)).reverse.filter fun i => length.testBit i

/-- The partial chunks (Length.cpp:113-120): each a length octet followed by `2^bit` octets; the second
component is what is left of the data. -/
def writeChunks : List Nat → Bytes → Bytes × Bytes
  | [], data => ([], data)
  | bit :: bits, data =>
    let (out, rest) := writeChunks bits (data.drop (2 ^ bit))
    (UInt8.ofNat (bit ||| 0xe0) :: (data.take (2 ^ bit) ++ out), rest)

/-- `write_new_length(.., PARTIAL)` (Length.cpp:94-124). The last piece is written by a recursive call
which repeats the packet tag octet. -/
def writeNewPartial (tag : Nat) (data : Bytes) : Out Bytes :=
  if data.length < 512 then .throw
  else
    let nonPartial := data.length % 512
    let (chunks, rest) := writeChunks (setBits data.length) data
    .ok (UInt8.ofNat (0xc0 ||| tag) :: (chunks ++ writeNewDefinite tag (rest.take nonPartial)))

/-- `write_new_length` (Length.cpp:91-168). -/
def writeNewLength (tag : Nat) (data : Bytes) (part : Bool := false) (octets : Nat := 0) : Out Bytes :=
  if part then writeNewPartial tag data else .ok (writeNewDefinite tag data octets)

/-- `Tag::actual_write` (Packet.cpp:63-70) and `Partial::write` (Partial.cpp:15-21) for a packet body. -/
def writePacket (fmt : Fmt) (tag : Nat) (part : Bool) (body : Bytes) : Out Bytes :=
  if fmt = .new ∨ tag > 15 then writeNewLength tag body part else .ok (writeOldLength tag body part)

/-! ## Reading -/

/-- `read_packet_header` (PGP.cpp:56-75): the control octet, format, tag and new position. -/
def readPacketHeader (data : Bytes) (pos : Nat) : Out (UInt8 × Fmt × Nat × Nat) := do
  let ctb ← charAt data pos
  if ctb &&& 0x80 = 0 then .throw
  else if ctb &&& 0x40 ≠ 0 then .ok (ctb, .new, (ctb &&& 0x3f).toNat, pos + 1)
  else .ok (ctb, .old, ((ctb >>> 2) &&& 0xf).toNat, pos + 1)

/-- `read_one_octet_lengths` (Length.cpp:10-14): the length and the position behind it. -/
def readOneOctet (data : Bytes) (pos : Nat) : Out (Nat × Nat) := do
  let c ← charAt data pos
  return (c.toNat, pos + 1)

/-- `read_two_octet_lengths` (Length.cpp:16-25). In the new format callers guarantee a first octet of at
least 192, so the subtraction does not go negative. -/
def readTwoOctet (data : Bytes) (pos : Nat) (fmt : Fmt) : Out (Nat × Nat) :=
  match fmt with
  | .old => do
    let s ← substr data pos 2
    return (toint256 s, pos + 2)
  | .new => do
    let a ← charAt data pos
    let b ← charAt data (pos + 1)
    return ((a.toNat - 192) * 256 + b.toNat + 192, pos + 2)

/-- `read_five_octet_lengths` (Length.cpp:27-31). (For the old format this skips one octet: it is called
with the position on the first of four length octets.) -/
def readFiveOctet (data : Bytes) (pos : Nat) : Out (Nat × Nat) := do
  let s ← substr data (pos + 1) 4
  return (toint256 s, pos + 5)

/-- Where `read_packet_unformatted` found the body: in `src`, at `start`, `length` octets. -/
structure Span where
  src : Bytes
  start : Nat
  length : Nat
  part : Bool
  deriving DecidableEq, Repr

/-- The definite-length branches of the new format (PGP.cpp:118-132): start, length and new position.
The first octet 223 is caught by no branch: nothing is consumed and start and length stay 0. -/
def newDefinite (data : Bytes) (pos : Nat) (first : UInt8) : Out (Nat × Nat × Nat) :=
  if first < 192 then do
    let (len, p) ← readOneOctet data pos
    return (p, len, p + len)
  else if first < 223 then do
    let (len, p) ← readTwoOctet data pos .new
    return (p, len, p + len)
  else if first = 255 then do
    let (len, p) ← readFiveOctet data pos
    return (p, len, p + len)
  else .ok (0, 0, pos)

/-- The loop over further partial chunks (PGP.cpp:147-154); running out of `fuel` stands for an endless loop. -/
def partialLoop (data : Bytes) : (fuel : Nat) → (pos : Nat) → (acc : Bytes) → Out (Bytes × Nat)
  | 0, _, _ => .diverge
  | fuel + 1, pos, acc => do
    let c ← charAt data pos
    if 224 ≤ c ∧ c ≤ 254 then do
      let len := 2 ^ (c &&& 0x1f).toNat
      let chunk ← substr data (pos + 1) len
      partialLoop data fuel (pos + 1 + len) (acc ++ chunk)
    else return (acc, pos)

/-- `read_packet_unformatted` (PGP.cpp:81-178).  The recursive call for the last piece (162) starts at an octet
outside 224..254, so it only reaches the definite branches, modelled by `newDefinite`; the old-format
indeterminate length leaves `packet_start` at its initial 0. -/
def readUnformatted (fmt : Fmt) (ctb : UInt8) (data : Bytes) (pos : Nat) : Out (Span × Nat) :=
  match fmt with
  | .old =>
    if ctb &&& 3 = 0 then do
      let (len, p) ← readOneOctet data pos
      return (⟨data, p, len, false⟩, p + len)
    else if ctb &&& 3 = 1 then do
      let (len, p) ← readTwoOctet data pos .old
      return (⟨data, p, len, false⟩, p + len)
    else if ctb &&& 3 = 2 then do
      let (len, p) ← readFiveOctet data pos
      return (⟨data, p, len, false⟩, p + len)
    else do
      let len := subSz data.length pos
      let body ← substr data pos len
      return (⟨body, 0, len, true⟩, pos + len)
  | .new => do
    let first ← charAt data pos
    if 224 ≤ first ∧ first ≠ 255 then do
      let len := 2 ^ (first &&& 0x1f).toNat
      let chunk ← substr data (pos + 1) len
      let (acc, p) ← partialLoop data (data.length + 1) (pos + 1 + len) chunk
      let c ← charAt data p
      let (fstart, flen, p) ← newDefinite data p c
      let last ← substr data fstart flen
      let body := acc ++ last
      return (⟨body, 0, body.length, true⟩, p + flen)
    else do
      let (start, len, p) ← newDefinite data pos first
      return (⟨data, start, len, false⟩, p)

/-- `Partial::can_have_partial_length` (Partial.cpp:41-46). -/
def canHavePartial (tag : Nat) : Bool := tag = 11 || tag = 8 || tag = 9 || tag = 18

/-- The tags `read_packet_raw` knows (PGP.cpp:189-259). -/
def knownTag (tag : Nat) : Bool := tag ≤ 14 || tag = 17 || tag = 18 || tag = 19 || (60 ≤ tag && tag ≤ 63)

/-- `read_packet` (PGP.cpp:269-288) for `pos < size()`, with `read_packet_raw` (180-267) up to the
packet-specific reader, which is the parameter `body`. -/
def readPacket {α : Type} (body : (tag : Nat) → Fmt → Span → Out α) (data : Bytes) (pos : Nat) :
    Out (α × Nat) := do
  let (ctb, fmt, tag, pos) ← readPacketHeader data pos
  let (span, pos) ← readUnformatted fmt ctb data pos
  if span.part && !canHavePartial tag then .throw
  else if !knownTag tag then .throw
  else do
    let p ← body tag fmt span
    return (p, pos)

/-- Loop of `PGP::read_raw` (PGP.cpp:473-479). -/
def readRawLoop {α : Type} (body : Nat → Fmt → Span → Out α) (data : Bytes) :
    (fuel pos : Nat) → Out (List α)
  | 0, _ => .diverge
  | fuel + 1, pos =>
    if pos < data.length then do
      let (p, pos) ← readPacket body data pos
      let ps ← readRawLoop body data fuel pos
      return p :: ps
    else .ok []

/-- `PGP::read_raw` (PGP.cpp:469-483). -/
def readRaw {α : Type} (body : Nat → Fmt → Span → Out α) (data : Bytes) : Out (List α) :=
  readRawLoop body data (data.length + 1) 0

end OpenPGP
