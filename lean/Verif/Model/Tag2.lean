import Verif.Model.Subpacket
import Verif.Lemmas.Mpi

/-!
# Signature packets: `src/Packets/Tag2.cpp`, and `Tag::read` (`src/Packets/Packet.cpp:89-106`)

Signatures are parametrised by the type `E` of embedded signatures; `SigAt` ties the knot by nesting depth.
`write_MPI` is used in its closed form `mpiOctets` (`writeMPI_eq` proves that the code's version computes it), and
`unhexlify(makehex(v, 2w))` in its closed form `be w v` (`unhexlify_makehex`).
-/
namespace OpenPGP

/-- `Tag::read(data, pos, length, check_end)` (Packet.cpp:89-100) on a fresh object: nothing is read when the length is
0; otherwise the packet-specific reader must end exactly behind the body. -/
def tagRead {α : Type} (fresh : α) (actual : Bytes → Nat → Nat → Out (α × Nat)) (span : Span)
    (checkEnd : Bool := true) : Out α :=
  if span.length = 0 then .ok fresh
  else do
    let (a, pos) ← actual span.src span.start span.length
    if checkEnd && pos != span.start + span.length then .throw else .ok a

/-- Several `read_MPI` calls one after the other. -/
def readMPIs (data : Bytes) : (count pos : Nat) → Out (List Nat × Nat)
  | 0, pos => .ok ([], pos)
  | n + 1, pos => do
    let (a, pos) ← readMPI data pos
    let (l, pos) ← readMPIs data n pos
    return (a :: l, pos)

/-- `for(MPI const & i : mpi) out += write_MPI(i)` (Tag2.cpp:281-283, Key.cpp:136-138 and others). -/
def writeMPIs (l : List Nat) : Bytes := l.flatMap mpiOctets

/-- `PKA::is_RSA` (PKAs.cpp:29-33). -/
def isRSA (pka : UInt8) : Bool := pka == 1 || pka == 2 || pka == 3

/-- `PKA::can_sign` (PKAs.cpp:17-27, default build). -/
def canSign (pka : UInt8) : Bool := pka == 1 || pka == 3 || pka == 17

/-- `PKA::can_encrypt` (PKAs.cpp:6-15, default build). -/
def canEncrypt (pka : UInt8) : Bool := pka == 1 || pka == 2 || pka == 16

/-- Fields of `Packet::Tag2` (Tag2.h:152-165). -/
structure Tag2 (E : Type) where
  version : UInt8
  type : UInt8
  pka : UInt8
  hash : UInt8
  mpi : List Nat
  left16 : Bytes
  time : Nat
  keyid : Bytes
  hashed : List (Sub E)
  unhashed : List (Sub E)
  deriving DecidableEq, Repr

namespace Tag2
variable {E : Type}

/-- `Tag2::Tag2()` (Tag2.cpp:355-366). -/
def fresh : Tag2 E := ⟨0, 0, 0, 0, [], [], 0, [], [], []⟩

/-- Version 3 branch of `Tag2::actual_read` (Tag2.cpp:115-145). `pos = 19` is an absolute position. -/
def readV3 (data : Bytes) (pos : Nat) : Out (Tag2 E × Nat) := do
  let five ← charAt data (pos + 1)
  if five ≠ 5 then .throw
  else do
    let type ← charAt data (pos + 2)
    let t ← substr data (pos + 3) 4
    let k ← substr data (pos + 7) 8
    if k.length ≠ 8 then .throw
    else do
      let pka ← charAt data (pos + 15)
      let hash ← charAt data (pos + 16)
      let left16 ← substr data (pos + 17) 2
      let (mpi, pos) ←
        if isRSA pka then readMPIs data 1 19
        else if pka = 17 then readMPIs data 2 19
        else .throw
      return (⟨3, type, pka, hash, mpi, left16, toint256 t % 2 ^ 32, k, [], []⟩, pos)

/-- Version 4 branch of `Tag2::actual_read` (Tag2.cpp:146-184). -/
def readV4 (readE : Bytes → Out E) (data : Bytes) (pos : Nat) : Out (Tag2 E × Nat) := do
  let type ← charAt data (pos + 1)
  let pka ← charAt data (pos + 2)
  let hash ← charAt data (pos + 3)
  let pos := pos + 4
  let h2 ← substr data pos 2
  let hsize := toint256 h2 % 2 ^ 16
  let pos := pos + 2
  let hs ← substr data pos hsize
  let hashed ← readSubpackets readE hs
  let pos := pos + hsize
  let u2 ← substr data pos 2
  let usize := toint256 u2 % 2 ^ 16
  let pos := pos + 2
  let us ← substr data pos usize
  let unhashed ← readSubpackets readE us
  let pos := pos + usize
  let left16 ← substr data pos 2
  let pos := pos + 2
  let (mpi, pos) ← readMPIs data (if pka = 17 then 2 else 1) pos
  return (⟨4, type, pka, hash, mpi, left16, 0, [], hashed, unhashed⟩, pos)

/-- `Tag2::actual_read` (Tag2.cpp:112-184). -/
def actualRead (readE : Bytes → Out E) (data : Bytes) (pos _len : Nat) : Out (Tag2 E × Nat) := do
  let version ← charAt data pos
  if version = 3 then readV3 data pos
  else if version = 4 then readV4 readE data pos
  else .throw

/-- `Tag2::read` as a packet at a place in the input. -/
def readAt (readE : Bytes → Out E) (span : Span) : Out (Tag2 E) := tagRead fresh (actualRead readE) span

/-- `Tag2::Tag2(data)` (Tag2.cpp:382-386): reads the whole string as a body. -/
def ofBytes (readE : Bytes → Out E) (data : Bytes) : Out (Tag2 E) := readAt readE ⟨data, 0, data.length, false⟩

/-- `Tag2::actual_raw` (Tag2.cpp:265-285). -/
def raw (rawE : E → Bytes) (s : Tag2 E) : Bytes :=
  [s.version] ++
  (if s.version = 3 then [5, s.type] ++ be 4 s.time ++ s.keyid ++ [s.pka, s.hash] ++ s.left16 else []) ++
  (if s.version = 4 then
    let h := writeSubpackets rawE s.hashed
    let u := writeSubpackets rawE s.unhashed
    [s.type, s.pka, s.hash] ++ be 2 h.length ++ h ++ be 2 u.length ++ u ++ s.left16 else []) ++
  writeMPIs s.mpi

/-- `Tag2::get_up_to_hashed` (Tag2.cpp:514-529). -/
def upToHashed (rawE : E → Bytes) (s : Tag2 E) : Out Bytes :=
  if s.version = 3 then .ok ([3, s.type] ++ be 4 s.time)
  else if s.version = 4 then
    let h := writeSubpackets rawE s.hashed
    .ok ([4, s.type, s.pka, s.hash] ++ be 2 h.length ++ h)
  else .throw

/-- `Tag2::get_without_unhashed` (Tag2.cpp:531-547). -/
def withoutUnhashed (rawE : E → Bytes) (s : Tag2 E) : Bytes :=
  [s.version] ++
  (if s.version < 4 then [5, s.type] ++ be 4 s.time ++ s.keyid ++ [s.pka, s.hash] ++ s.left16 else []) ++
  (if s.version = 4 then
    let h := writeSubpackets rawE s.hashed
    [s.type, s.pka, s.hash] ++ be 2 h.length ++ h ++ [0, 0] ++ s.left16 else []) ++
  writeMPIs s.mpi

/-- The time assignments of `get_times` in one subpacket list (Tag2.cpp:423-448); the creation time is only taken when
`creation` is set (hashed area). -/
def timesLoop (creation : Bool) (l : List (Sub E)) (t : Nat × Nat × Nat) : Nat × Nat × Nat :=
  l.foldl (fun t s =>
    match s.body with
    | .sigTime x => if creation then (x, t.2.1, t.2.2) else t
    | .sigExpire x => (t.1, x, t.2.2)
    | .keyExpire x => (t.1, t.2.1, x)
    | _ => t) t

/-- `Tag2::get_times` (Tag2.cpp:413-462): creation, signature expiry, key expiry. -/
def getTimes (s : Tag2 E) : Out (Nat × Nat × Nat) :=
  if s.version = 3 then .ok (s.time, 0, 0)
  else if s.version = 4 then
    let t := timesLoop false s.unhashed (timesLoop true s.hashed (0, 0, 0))
    if t.1 = 0 then .throw
    else .ok (t.1, (if t.2.1 ≠ 0 then (t.2.1 + t.1) % 2 ^ 32 else t.2.1),
      (if t.2.2 ≠ 0 then (t.2.2 + t.1) % 2 ^ 32 else t.2.2))
  else .throw

/-- The first issuer subpacket of a list (loops in Tag2.cpp:476-488). -/
def firstIssuer : List (Sub E) → Option Bytes
  | [] => none
  | s :: l =>
    match s.body with
    | .issuer k => some k
    | _ => firstIssuer l

/-- `Tag2::get_keyid` (Tag2.cpp:470-495). -/
def getKeyid (s : Tag2 E) : Out Bytes :=
  if s.version = 3 then .ok s.keyid
  else if s.version = 4 then
    match firstIssuer s.unhashed with
    | some k => .ok k
    | none =>
      match firstIssuer s.hashed with
      | some k => .ok k
      | none => .ok []
  else .throw

/-- `Tag2::find_subpacket` (Tag2.cpp:637-663). -/
def findSubpacket (rawE : E → Bytes) (s : Tag2 E) (type : Nat) : Bytes :=
  let inH := match s.hashed.find? (fun x => x.body.type == type) with
    | some x => x.body.raw rawE
    | none => []
  match s.unhashed.find? (fun x => x.body.type == type) with
  | some x => x.body.raw rawE
  | none => inH

/-- Replace the first element satisfying `p`, or append (`set_time`, `set_keyid`: Tag2.cpp:573-590, 601-618). -/
def replaceFirst {α : Type} (p : α → Bool) (x : α) : List α → List α
  | [] => [x]
  | a :: l => if p a then x :: l else a :: replaceFirst p x l

/-- `Tag2::set_time` (Tag2.cpp:569-589). -/
def setTime (s : Tag2 E) (t : Nat) : Tag2 E :=
  if s.version = 3 then { s with time := t }
  else if s.version = 4 then
    { s with hashed := replaceFirst (fun x => x.body.type == 2) ⟨false, .sigTime t⟩ s.hashed }
  else s

/-- `Tag2::set_keyid` (Tag2.cpp:591-615). -/
def setKeyid (s : Tag2 E) (k : Bytes) : Out (Tag2 E) :=
  if k.length ≠ 8 then .throw
  else if s.version = 3 then .ok { s with keyid := k }
  else if s.version = 4 then
    .ok { s with unhashed := replaceFirst (fun x => x.body.type == 16) ⟨false, .issuer k⟩ s.unhashed }
  else .ok s

end Tag2

/-- Signatures whose embedded signatures nest at most `n` levels; every signature object lies in some `SigAt n`. -/
def SigAt : Nat → Type
  | 0 => Empty
  | n + 1 => Tag2 (SigAt n)

instance decEqSigAt : (n : Nat) → DecidableEq (SigAt n)
  | 0 => fun e => e.elim
  | n + 1 => letI := decEqSigAt n; (inferInstance : DecidableEq (Tag2 (SigAt n)))

/-- `Tag2::actual_raw` with `Sub32::raw` (Sub32.cpp:45-47). -/
def rawAt : (n : Nat) → SigAt n → Bytes
  | 0, e => e.elim
  | n + 1, s => Tag2.raw (rawAt n) s

/-- `Tag2::Tag2(data)` with `Sub32::actual_read` (Sub32.cpp:7-9), for at most `n` levels: deeper data is `.diverge`.
(`C48` shows that `data.length + 1` levels are always enough.) -/
def readSigAt : (n : Nat) → Bytes → Out (SigAt n)
  | 0, _ => .diverge
  | n + 1, data => Tag2.ofBytes (readSigAt n) data

end OpenPGP
