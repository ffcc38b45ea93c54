import Verif.Model.Tag2
import Verif.Model.Algs

/-!
# Key material packets: `src/Packets/Key.cpp` (tags 5, 6, 7 and 14 share it)

Default build: `GPG_COMPATIBLE` is off (CMakeLists.txt:28-32), so the curve branches do not exist.
-/
namespace OpenPGP

/-- Fields of `Packet::Key` (Key.h). -/
structure KeyPkt where
  version : UInt8
  time : Nat
  pka : UInt8
  mpi : List Nat
  expire : Nat
  deriving DecidableEq, Repr

namespace KeyPkt

/-- A newly constructed key packet (Key.cpp:6-19). -/
def fresh : KeyPkt := ⟨0, 0, 0, [], 0⟩

/-- Value of a `char`, which is signed on the platforms the library is built on. -/
def schar (c : UInt8) : Int := if c.toNat < 128 then c.toNat else (c.toNat : Int) - 256

/-- `set_expire((data[pos + 5] << 8) + data[pos + 6])` (Key.cpp:50): `int` arithmetic on signed characters, converted to
`uint32_t`. (Shifting a negative number is formally undefined before C++20; every compiler multiplies.) -/
def expireOf (a b : UInt8) : Nat := ((schar a * 256 + schar b) % 2 ^ 32).toNat

/-- Number of public MPIs of a version 4 key (Key.cpp:60-107). -/
def mpiCount (pka : UInt8) : Option Nat :=
  if isRSA pka then some 2
  else if pka = 17 then some 4
  else if pka = 16 then some 3
  else none

/-- `Key::read_common` (Key.cpp:45-109) on a fresh packet. Versions above 4 consume nothing. -/
def readCommon (data : Bytes) (pos : Nat) : Out (KeyPkt × Nat) := do
  let version ← charAt data pos
  let t ← substr data (pos + 1) 4
  let time := toint256 t % 2 ^ 32
  if version < 4 then do
    let a ← charAt data (pos + 5)
    let b ← charAt data (pos + 6)
    let pka ← charAt data (pos + 7)
    let (mpi, pos) ← readMPIs data 2 (pos + 8)
    return (⟨version, time, pka, mpi, expireOf a b⟩, pos)
  else if version = 4 then do
    let pka ← charAt data (pos + 5)
    match mpiCount pka with
    | none => .throw
    | some n => do
      let (mpi, pos) ← readMPIs data n (pos + 6)
      return (⟨version, time, pka, mpi, 0⟩, pos)
  else return (⟨version, time, 0, [], 0⟩, pos)

/-- `Key::raw_common` (Key.cpp:158-188). -/
def rawCommon (k : KeyPkt) : Bytes :=
  [k.version] ++ be 4 k.time ++ (if k.version < 4 then be 2 k.expire else []) ++ [k.pka] ++ writeMPIs k.mpi

/-- `Key::actual_read` through `Tag::read` (Key.cpp:21-23; Tag6, Tag14 inherit it). -/
def readAt (span : Span) (checkEnd : Bool := true) : Out KeyPkt :=
  tagRead fresh (fun d p _ => readCommon d p) span checkEnd

/-- `Key::get_fingerprint` (Key.cpp:227-244). The MPI bodies are `write_MPI(i)` without its two length octets. -/
def fingerprint (cr : Crypto) (k : KeyPkt) : Out Bytes :=
  if k.version < 4 then .ok (cr.hash 1 (k.mpi.flatMap fun m => (mpiOctets m).drop 2))
  else if k.version = 4 then .ok (cr.hash 2 ([0x99] ++ be 2 k.rawCommon.length ++ k.rawCommon))
  else .throw

/-- `Key::get_keyid` (Key.cpp:246-258). `data.size() - 8` wraps for short moduli, and `substr` then throws. -/
def keyid (cr : Crypto) (k : KeyPkt) : Out Bytes :=
  if k.version < 4 then do
    let m ← vecAt k.mpi 0
    let d := mpiOctets m
    substr d (subSz d.length 8) 8
  else if k.version = 4 then do
    let f ← fingerprint cr k
    substr f 12 8
  else .throw

end KeyPkt
end OpenPGP
