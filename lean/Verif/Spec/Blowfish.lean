import Mathlib.Analysis.SpecialFunctions.Trigonometric.Basic
import Verif.Base

/-!
# Blowfish

As in "Description of a New Variable-Length Key, 64-Bit Block Cipher (Blowfish)" (Schneier, 1993).  Words are big-endian.
Nothing here refers to the model of the code.
-/
namespace OpenPGP.Std.Blowfish

/-- The 32-bit word `i` of the fractional part of `π`: the last 32 bits of `⌊π · 2^(32 (i + 1))⌋`. -/
noncomputable def piWord (i : Nat) : BitVec 32 := BitVec.ofNat 32 ⌊Real.pi * 2 ^ (32 * (i + 1))⌋₊

/-- The P-array and the four S-boxes, one word after the other: `P_1 … P_18`, `S_(1,0) … S_(1,255)`, … `S_(4,255)`. -/
abbrev Tables := Nat → BitVec 32

/-- `P_i`, `i` from 1 to 18. -/
def P (T : Tables) (i : Nat) : BitVec 32 := T (i - 1)

/-- `S_(i,x)`, `i` from 1 to 4. -/
def S (T : Tables) (i : Nat) (x : BitVec 8) : BitVec 32 := T (18 + 256 * (i - 1) + x.toNat)

/-- `F`: divide `xL` into four eight-bit quarters `a`, `b`, `c`, `d`;
`F(xL) = ((S_(1,a) + S_(2,b)) XOR S_(3,c)) + S_(4,d)`. -/
def F (T : Tables) (x : BitVec 32) : BitVec 32 :=
  ((S T 1 (x.extractLsb' 24 8) + S T 2 (x.extractLsb' 16 8)) ^^^ S T 3 (x.extractLsb' 8 8)) + S T 4 (x.extractLsb' 0 8)

/-- Round `i`: `xL = xL XOR P_i`, `xR = F(xL) XOR xR`, swap `xL` and `xR`. -/
def round (T : Tables) : BitVec 32 × BitVec 32 → Nat → BitVec 32 × BitVec 32 := fun (xL, xR) i =>
  let xL := xL ^^^ P T i
  let xR := F T xL ^^^ xR
  (xR, xL)

/-- Sixteen rounds, the last swap undone, `xR = xR XOR P_17`, `xL = xL XOR P_18`. -/
def cipher (T : Tables) (x : BitVec 32 × BitVec 32) : BitVec 32 × BitVec 32 :=
  let (xL, xR) := (List.range' 1 16).foldl (round T) x
  let (xL, xR) := (xR, xL)
  (xL ^^^ P T 18, xR ^^^ P T 17)

/-- The word of four octets from `i` on, cycling through the string. -/
def cycWord (s : Bytes) (i : Nat) : BitVec 32 :=
  let o (j : Nat) : BitVec 8 := (s.getD (j % s.length) 0).toBitVec
  o i ++ o (i + 1) ++ o (i + 2) ++ o (i + 3)

/-- Steps 1 and 2 of the generation of the subkeys: the digits of `π`, the P-array xored with the key, the key being repeated as
often as needed. -/
noncomputable def start (key : Bytes) : Tables := fun i => if i < 18 then piWord i ^^^ cycWord key (4 * i) else piWord i

/-- Steps 3 to 7: the output so far is encrypted with the tables so far, and replaces their next two words. -/
def replace : Tables × (BitVec 32 × BitVec 32) → Nat → Tables × (BitVec 32 × BitVec 32) := fun (T, x) j =>
  let y := cipher T x
  (fun i => if i = 2 * j then y.1 else if i = 2 * j + 1 then y.2 else T i, y)

/-- The tables of a key: "in total, 521 iterations are required", from the all-zero string. -/
noncomputable def tables (key : Bytes) : Tables := ((List.range 521).foldl replace (start key, (0, 0))).1

/-- The octets of a word. -/
def octets (x : BitVec 32) : Bytes :=
  [⟨x.extractLsb' 24 8⟩, ⟨x.extractLsb' 16 8⟩, ⟨x.extractLsb' 8 8⟩, ⟨x.extractLsb' 0 8⟩]

/-- Blowfish with a key of 4 to 56 octets. -/
noncomputable def encrypt (key block : Bytes) : Bytes :=
  let y := cipher (tables key) (cycWord block 0, cycWord block 4)
  octets y.1 ++ octets y.2

end OpenPGP.Std.Blowfish
