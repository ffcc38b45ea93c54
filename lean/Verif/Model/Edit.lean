import Verif.Model.Packets
import Verif.Model.Crypt

/-!
# Setters that do more than store a value, and `Tag11::out`

`Tag2::set_time` and `Tag2::set_keyid` are in `Model/Tag2.lean`. A member function that may throw in the middle is modelled with the object
it leaves behind: the caller can catch the exception and go on using the object.
-/
namespace OpenPGP

/-- The members of `Packet::Tag8` (Tag8.h) that its setters touch. -/
structure Tag8 where
  comp : UInt8
  compressed : Bytes
  deriving DecidableEq, Repr

namespace Tag8

/-- `Tag8::get_data` (Tag8.cpp:84-86) with `Tag8::decompress` (Tag8.cpp:13-15). -/
def getData (z : Zip) (t : Tag8) : Out Bytes := decompress z t.comp t.compressed

/-- `Tag8::set_data` (Tag8.cpp:105-107) with `Tag8::compress` (Tag8.cpp:9-11): how the call ends and the object it leaves. -/
def setData (z : Zip) (t : Tag8) (data : Bytes) : Out Unit × Tag8 :=
  match compress z t.comp data with
  | .ok c => (.ok (), { t with compressed := c })
  | .throw => (.throw, t)
  | .ub => (.ub, t)
  | .diverge => (.diverge, t)

/-- `Tag8::set_comp` (Tag8.cpp:98-103): the algorithm is stored before the data is compressed with it. -/
def setComp (z : Zip) (t : Tag8) (alg : UInt8) : Out Unit × Tag8 :=
  match t.getData z with
  | .ok data => ({ t with comp := alg } : Tag8).setData z data
  | .throw => (.throw, t)
  | .ub => (.ub, t)
  | .diverge => (.diverge, t)

end Tag8

namespace Tag5

/-- What `set_s2k_con`, `set_sym`, `set_s2k`, `set_IV` and `set_secret` store in `size` (Tag5.cpp:281-291, 293-303, 315-323, 326-336, 338-348), in
terms of the object with the new value. -/
def setterSize (t : Tag5) : Nat :=
  t.key.rawCommon.length + 1 + (match t.s2k with | some s => s.raw.length | none => 0) + (if t.s2kCon ≠ 0 then t.iv.length else 0) + t.secret.length

end Tag5

/-- The files a program can reach, as far as `std::ofstream` is concerned: which paths can be opened for writing and what the files hold. -/
structure Disk where
  opens : Bytes → Bool
  holds : Bytes → Option Bytes

namespace Disk

/-- `f.open(path)` and `f << data` for a path that can be opened: the file is emptied and then holds the data. That writing succeeds once the
file is open is assumed (the code does not look). -/
def store (d : Disk) (path data : Bytes) : Disk := { d with holds := fun p => if p = path then some data else d.holds p }

end Disk

/-- The path named by `s.c_str()`: the octets before the first zero octet. -/
def cPath (s : Bytes) : Bytes := s.takeWhile (· ≠ 0)

/-- "Data written to file '" (Tag11.cpp:117). -/
def writtenTo : Bytes := [68, 97, 116, 97, 32, 119, 114, 105, 116, 116, 101, 110, 32, 116, 111, 32, 102, 105, 108, 101, 32, 39]

namespace Tag11

/-- `Tag11::out(writefile)` (Tag11.cpp:93-117): how the call ends and the files afterwards. Opening in binary or text mode is the same on POSIX. -/
def out (t : Tag11) (writefile : Bool) (d : Disk) : Out Bytes × Disk :=
  if t.filename ≠ [] ∧ writefile = true then
    if t.format = 0x62 ∨ t.format = 0x74 ∨ t.format = 0x75 then
      if d.opens (cPath t.filename) then (.ok (writtenTo ++ t.filename ++ [39, 46]), d.store (cPath t.filename) t.literal)
      else (.throw, d)
    else (.throw, d)
  else (.ok t.literal, d)

end Tag11

end OpenPGP
