import Verif.Base

/-!
# AES as FIPS 197 defines it

Octets are elements of GF(2^8) as bit vectors (4.2); section numbers are those of FIPS 197.  Nothing here refers to the model of the code.
-/
namespace OpenPGP.Std.Aes

/-- Multiplication by `x` (4.2.1): modulo `x^8 + x^4 + x^3 + x + 1`. -/
def xtime (a : BitVec 8) : BitVec 8 := (a <<< 1) ^^^ (if a.msb then 0x1b else 0)

/-- `x^i · a`. -/
def xtimes (a : BitVec 8) : Nat → BitVec 8
  | 0 => a
  | i + 1 => xtime (xtimes a i)

/-- Multiplication (4.2): the sum of the `x^i · a` over the terms `x^i` of `b`. -/
def mul (a b : BitVec 8) : BitVec 8 :=
  (List.range 8).foldl (fun p i => if b.getLsbD i then p ^^^ xtimes a i else p) 0

/-- The multiplicative inverse, 0 for 0 (5.1.1): `a^254`. -/
def inv (a : BitVec 8) : BitVec 8 :=
  let a2 := mul a a
  let a4 := mul a2 a2
  let a8 := mul a4 a4
  let a16 := mul a8 a8
  let a32 := mul a16 a16
  let a64 := mul a32 a32
  let a128 := mul a64 a64
  mul a2 (mul a4 (mul a8 (mul a16 (mul a32 (mul a64 a128)))))

/-- It is the inverse. -/
theorem mul_inv : ∀ a : BitVec 8, a ≠ 0 → mul a (inv a) = 1 := by decide +kernel

/-- The S-box (5.1.1): the inverse, then bit `i` is `b_i + b_(i+4) + b_(i+5) + b_(i+6) + b_(i+7) + c_i` with `c = 0x63`. -/
def sbox (a : BitVec 8) : BitVec 8 :=
  let b := inv a
  b ^^^ b.rotateRight 4 ^^^ b.rotateRight 5 ^^^ b.rotateRight 6 ^^^ b.rotateRight 7 ^^^ 0x63

/-- The state (3.4): row, then column; indices are added modulo 4. -/
abbrev State := Fin 4 → Fin 4 → BitVec 8

/-- A word: four octets. -/
abbrev Word := Fin 4 → BitVec 8

/-- `SubBytes` (5.1.1). -/
def subBytes (s : State) : State := fun r c => sbox (s r c)

/-- `ShiftRows` (5.1.2). -/
def shiftRows (s : State) : State := fun r c => s r (c + r)

/-- `MixColumns` (5.1.3). -/
def mixColumns (s : State) : State := fun r c =>
  mul 2 (s r c) ^^^ mul 3 (s (r + 1) c) ^^^ s (r + 2) c ^^^ s (r + 3) c

/-- Octet `i` of a string. -/
def octet (b : Bytes) (i : Nat) : BitVec 8 := (b.getD i 0).toBitVec

/-- `KeyExpansion` (5.2): the word `w[i]` for a key of `4 nk` octets. -/
def keyWord (key : Bytes) (nk : Nat) (i : Nat) : Word :=
  if _h : i < nk ∨ nk = 0 then fun r => octet key (4 * i + r)
  else fun r => keyWord key nk (i - nk) r ^^^
    (if i % nk = 0 then sbox (keyWord key nk (i - 1) (r + 1)) ^^^ (if r = 0 then xtimes 1 (i / nk - 1) else 0)
     else if 6 < nk ∧ i % nk = 4 then sbox (keyWord key nk (i - 1) r)
     else keyWord key nk (i - 1) r)
termination_by i

/-- `AddRoundKey` (5.1.4). -/
def addRoundKey (key : Bytes) (nk : Nat) (s : State) (round : Nat) : State := fun r c =>
  s r c ^^^ keyWord key nk (4 * round + c) r

/-- `Cipher` (5.1) on the state: `nk + 6` rounds. -/
def rounds (key : Bytes) (nk : Nat) (s : State) : State :=
  let s := addRoundKey key nk s 0
  let s := (List.range' 1 (nk + 5)).foldl (fun s k => addRoundKey key nk (mixColumns (shiftRows (subBytes s))) k) s
  addRoundKey key nk (shiftRows (subBytes s)) (nk + 6)

/-- The state of an input block (3.4): columns, one after the other. -/
def load (block : Bytes) : State := fun r c => octet block (r + 4 * c)

/-- The output of a state (3.4). -/
def store (s : State) : Bytes :=
  (List.finRange 4).flatMap fun c => (List.finRange 4).map fun r => ⟨s r c⟩

/-- AES with a key of 16, 24 or 32 octets. -/
def encrypt (key block : Bytes) : Bytes := store (rounds key (key.length / 4) (load block))

end OpenPGP.Std.Aes
