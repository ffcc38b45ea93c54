import Verif.Base

/-!
# `src/Misc/CRC-24.cpp`
-/
namespace OpenPGP

/-- One turn of the inner loop (CRC-24.cpp:13-18). -/
def crcBit (crc : BitVec 32) : BitVec 32 :=
  let crc := crc <<< 1
  if crc &&& 0x1000000#32 ≠ 0#32 then crc ^^^ 0x1864CFB#32 else crc

/-- One octet (CRC-24.cpp:11-19). -/
def crcByte (crc : BitVec 32) (c : UInt8) : BitVec 32 :=
  let crc := crc ^^^ (BitVec.ofNat 32 c.toNat <<< 16)
  crcBit (crcBit (crcBit (crcBit (crcBit (crcBit (crcBit (crcBit crc)))))))

/-- `crc24` (CRC-24.cpp:6-22). -/
def crc24 (str : Bytes) : BitVec 32 :=
  (str.foldl crcByte 0xB704CE#32) &&& 0xFFFFFF#32

end OpenPGP
