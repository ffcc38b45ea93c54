import Verif.Model.Includes

/-!
# `src/Misc/radix64.cpp`
-/
namespace OpenPGP

/-- The 62 fixed characters `A-Z a-z 0-9` followed by `char62` and `char63` (radix64.cpp:20). -/
def radixChar (c62 c63 : UInt8) (i : Nat) : UInt8 :=
  if i < 26 then UInt8.ofNat (65 + i)
  else if i < 52 then UInt8.ofNat (71 + i)
  else if i < 62 then UInt8.ofNat (i - 4)
  else if i = 62 then c62 else c63

/-- `toint(bin.substr(x, 6), 2)` for `x = 0, 6, 12, ...` (radix64.cpp:18-22). -/
def sextets : List Bool → List Nat
  | a :: b :: c :: d :: e :: f :: rest => tointBits [a, b, c, d, e, f] :: sextets rest
  | [] => []
  | l => [tointBits l]

/-- `toint(bin.substr(x, 8), 2)` for `x = 0, 8, 16, ...` (radix64.cpp:75-77). -/
def octets : List Bool → Bytes
  | a :: b :: c :: d :: e :: f :: g :: h :: rest =>
    UInt8.ofNat (tointBits [a, b, c, d, e, f, g, h]) :: octets rest
  | [] => []
  | l => [UInt8.ofNat (tointBits l)]

/-- `ascii2radix64` (radix64.cpp:7-34).  `makebin` is applied to a signed `char`; only its low 8
bits are used, so the octet is passed. -/
def ascii2radix64 (str : Bytes) (c62 : UInt8 := 43) (c63 : UInt8 := 47) : Bytes :=
  let pad := (3 - str.length % 3) % 3
  let str := str ++ List.replicate pad 0
  let bin := str.flatMap fun c => makebin c.toNat 8
  let out := (sextets bin).map (radixChar c62 c63)
  out.take (out.length - pad) ++ List.replicate pad 61

/-- The loop that strips and counts `=` (radix64.cpp:44-49), on the reversed string; the index
`size() - 1` of an empty string is out of range. -/
def stripPad : Bytes → Nat → Out (Bytes × Nat)
  | [], _ => .ub
  | c :: rest, n => if c = 61 then stripPad rest (n + 1) else .ok ((c :: rest).reverse, n)

/-- The character to 6 bits mapping (radix64.cpp:51-70). -/
def radixBits (c62 c63 : UInt8) (c : UInt8) : Out (List Bool) :=
  if 65 ≤ c ∧ c ≤ 90 then .ok (makebin (c.toNat - 65) 6)
  else if 97 ≤ c ∧ c ≤ 122 then .ok (makebin (c.toNat - 71) 6)
  else if 48 ≤ c ∧ c ≤ 57 then .ok (makebin (c.toNat + 4) 6)
  else if c = c62 then .ok [true, true, true, true, true, false]
  else if c = c63 then .ok [true, true, true, true, true, true]
  else .throw

/-- The loop over the characters (radix64.cpp:51-70). -/
def radixBitsAll (c62 c63 : UInt8) : Bytes → Out (List Bool)
  | [] => .ok []
  | c :: rest => do
    let b ← radixBits c62 c63 c
    let r ← radixBitsAll c62 c63 rest
    return b ++ r

/-- `radix642ascii` (radix64.cpp:36-80).  `unpad` is a `uint8_t`; the final `size() - unpad` wraps
and `substr` then keeps everything. -/
def radix642ascii (str : Bytes) (c62 : UInt8 := 43) (c63 : UInt8 := 47) : Out Bytes :=
  if str.length % 4 ≠ 0 then .ok []
  else do
    let (chars, n) ← stripPad str.reverse 0
    let unpad := n % 256
    let bin ← radixBitsAll c62 c63 chars
    let out := octets (bin ++ List.replicate (unpad * 6) false)
    return out.take (subSz out.length unpad)

end OpenPGP
