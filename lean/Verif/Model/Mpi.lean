import Verif.Model.Includes

/-!
# `src/Misc/mpi.cpp`: multi-precision integers

GMP integers are `Nat` (the library only handles non-negative ones); GMP's conversion to and from
strings of digits is taken as exact.
-/
namespace OpenPGP

/-- `MPI::get_str(16)`: no leading zeros, `"0"` for zero (GMP). -/
def getStr16 (a : Nat) : Bytes := makehex a (a.log2 / 4 + 1) false

/-- `mpitohex` (mpi.cpp:25-31). -/
def mpitohex (a : Nat) : Bytes :=
  let out := getStr16 a
  if out.length % 2 = 1 then 48 :: out else out

/-- `mpitoraw` (mpi.cpp:41-43). -/
def mpitoraw (a : Nat) : Out Bytes := unhexlify (mpitohex a)

/-- `bitsize` (mpi.cpp:49-51): length of `get_str(2)`, which is 1 for zero. -/
def bitsize (a : Nat) : Nat := a.log2 + 1

/-- One digit of `mpz_class(hex, 16)`; `none` makes the constructor throw `std::invalid_argument`. -/
def hexValue (c : UInt8) : Option Nat := (unhexChar c).map UInt8.toNat

/-- Accumulating one digit. -/
def hexStep (acc : Out Nat) (c : UInt8) : Out Nat := do
  let a ← acc
  match hexValue c with
  | none => .throw
  | some d => .ok (a * 16 + d)

/-- `hextompi` (mpi.cpp:9-11): an empty string is rejected by the `mpz_class` constructor. GMP's
tolerance for white space and a sign is not modelled (no caller passes any). -/
def hextompi (hex : Bytes) : Out Nat :=
  if hex = [] then .throw
  else hex.foldl hexStep (.ok 0)

/-- `rawtompi` (mpi.cpp:21-23). -/
def rawtompi (raw : Bytes) : Out Nat := hextompi (hexlify raw)

/-- `write_MPI` (mpi.cpp:90-93). -/
def writeMPI (a : Nat) : Out Bytes := do
  let out ← mpitoraw a
  let hd ← unhexlify (makehex (bitsize a) 4 false)
  return hd ++ out

/-- `while (size & 7) size++` on a `uint16_t` (mpi.cpp:103-106), in closed form: the next multiple
of 8, wrapping to 0 above 65528. -/
def roundUp8 (size : Nat) : Nat := ((size + 7) / 8 * 8) % 65536

/-- `read_MPI` (mpi.cpp:96-115). -/
def readMPI (data : Bytes) (pos : Nat) : Out (Nat × Nat) := do
  let hi ← charAt data pos
  let lo ← charAt data (pos + 1)
  let size := hi.toNat * 256 + lo.toNat
  let pos := pos + 2
  let size := roundUp8 size / 8
  let raw ← substr data pos size
  let out ← rawtompi raw
  return (out, pos + size)

end OpenPGP
