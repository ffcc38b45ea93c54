import Verif.Base

/-!
# IDEA

As in Lai's thesis and in the Handbook of Applied Cryptography, 7.6 (Algorithm 7.101).  Nothing here refers to the
model of the code.
-/
namespace OpenPGP.Std.Idea

/-- The element of `{1, …, 2^16}` a 16-bit word stands for: the word zero is `2^16`. -/
def rep (a : BitVec 16) : Nat := if a = 0 then 2 ^ 16 else a.toNat

/-- `⊙`: multiplication modulo `2^16 + 1` (`2^16` is the word zero again). -/
def mul (a b : BitVec 16) : BitVec 16 := BitVec.ofNat 16 (rep a * rep b % (2 ^ 16 + 1))

/-- The subkey number `i`, counted from 0: eight from the key, from its left end, then eight from the key rotated left
by 25 bits, and so on. -/
def subkey (key : Bytes) (i : Nat) : BitVec 16 :=
  ((BitVec.ofNat 128 (num key)).rotateLeft (25 * (i / 8))).extractLsb' (16 * (7 - i % 8)) 16

/-- The four words of a block. -/
abbrev Block := BitVec 16 × BitVec 16 × BitVec 16 × BitVec 16

/-- Round `r`, counted from 0. -/
def round (key : Bytes) : Block → Nat → Block := fun (x1, x2, x3, x4) r =>
  let k (i : Nat) := subkey key (6 * r + i - 1)
  let x1 := mul x1 (k 1)
  let x2 := x2 + k 2
  let x3 := x3 + k 3
  let x4 := mul x4 (k 4)
  let t0 := mul (k 5) (x1 ^^^ x3)
  let t1 := mul (k 6) (t0 + (x2 ^^^ x4))
  let t2 := t0 + t1
  (x1 ^^^ t1, x3 ^^^ t1, x2 ^^^ t2, x4 ^^^ t2)

/-- The output transformation; the exchange of the middle words in the eighth round is undone. -/
def final (key : Bytes) : Block → Block := fun (x1, x2, x3, x4) =>
  (mul x1 (subkey key 48), x3 + subkey key 49, x2 + subkey key 50, mul x4 (subkey key 51))

/-- The word at the octets `i`, `i + 1`. -/
def word (b : Bytes) (i : Nat) : BitVec 16 := BitVec.ofNat 16 (num ((b.drop i).take 2))

/-- The words of a block. -/
def load (b : Bytes) : Block := (word b 0, word b 2, word b 4, word b 6)

/-- The octets of a block. -/
def store : Block → Bytes := fun (x1, x2, x3, x4) => be 2 x1.toNat ++ be 2 x2.toNat ++ be 2 x3.toNat ++ be 2 x4.toNat

/-- IDEA with a key of 16 octets. -/
def encrypt (key block : Bytes) : Bytes := store (final key ((List.range 8).foldl (round key) (load block)))

end OpenPGP.Std.Idea
