import Verif.Base

/-!
# DES and Triple-DES as FIPS 46-3 and ANSI X9.52 define them

Bit strings are lists, the first (leftmost) bit first, and bits are counted from 1 as in the standard.  Nothing here
refers to the model of the code.
-/
namespace OpenPGP.Std.Des

/-- A string of bits, leftmost first. -/
abbrev Bits := List Bool

/-- The number a string of bits spells. -/
def number (s : Bits) : Nat := s.foldl (fun a b => 2 * a + b.toNat) 0

/-- The `n` bits of a number. -/
def bits (n v : Nat) : Bits := (List.range n).map fun i => v.testBit (n - 1 - i)

/-- The bits of `s` at the positions in a table, counted from 1. -/
def choose (T : List Nat) (s : Bits) : Bits := T.map fun i => s.getD (i - 1) false

/-- Addition modulo 2, bit by bit. -/
def add (a b : Bits) : Bits := List.zipWith Bool.xor a b

/-- `IP`: the rows begin 58, 60, 62, 64, 57, 59, 61, 63 and go down by eight. -/
def IP : List Nat := [58, 60, 62, 64, 57, 59, 61, 63].flatMap fun a => (List.range 8).map fun j => a - 8 * j

/-- `IP⁻¹`: position `i` takes the bit that `IP` moves from `i`. -/
def IPinv : List Nat := (List.range 64).map fun i => IP.idxOf (i + 1) + 1

/-- `E`: eight groups of six bits, each group overlapping its neighbours, cyclically. -/
def E : List Nat := (List.range 8).flatMap fun g => (List.range 6).map fun j => (4 * g + j + 31) % 32 + 1

/-- `P`. -/
def P : List Nat :=
  [16, 7, 20, 21,
   29, 12, 28, 17,
   1, 15, 23, 26,
   5, 18, 31, 10,
   2, 8, 24, 14,
   32, 27, 3, 9,
   19, 13, 30, 6,
   22, 11, 4, 25]

/-- The selection functions `S1 … S8`: four rows of sixteen. -/
def S : List (List (List Nat)) :=
  [[[14, 4, 13, 1, 2, 15, 11, 8, 3, 10, 6, 12, 5, 9, 0, 7],
    [0, 15, 7, 4, 14, 2, 13, 1, 10, 6, 12, 11, 9, 5, 3, 8],
    [4, 1, 14, 8, 13, 6, 2, 11, 15, 12, 9, 7, 3, 10, 5, 0],
    [15, 12, 8, 2, 4, 9, 1, 7, 5, 11, 3, 14, 10, 0, 6, 13]],
   [[15, 1, 8, 14, 6, 11, 3, 4, 9, 7, 2, 13, 12, 0, 5, 10],
    [3, 13, 4, 7, 15, 2, 8, 14, 12, 0, 1, 10, 6, 9, 11, 5],
    [0, 14, 7, 11, 10, 4, 13, 1, 5, 8, 12, 6, 9, 3, 2, 15],
    [13, 8, 10, 1, 3, 15, 4, 2, 11, 6, 7, 12, 0, 5, 14, 9]],
   [[10, 0, 9, 14, 6, 3, 15, 5, 1, 13, 12, 7, 11, 4, 2, 8],
    [13, 7, 0, 9, 3, 4, 6, 10, 2, 8, 5, 14, 12, 11, 15, 1],
    [13, 6, 4, 9, 8, 15, 3, 0, 11, 1, 2, 12, 5, 10, 14, 7],
    [1, 10, 13, 0, 6, 9, 8, 7, 4, 15, 14, 3, 11, 5, 2, 12]],
   [[7, 13, 14, 3, 0, 6, 9, 10, 1, 2, 8, 5, 11, 12, 4, 15],
    [13, 8, 11, 5, 6, 15, 0, 3, 4, 7, 2, 12, 1, 10, 14, 9],
    [10, 6, 9, 0, 12, 11, 7, 13, 15, 1, 3, 14, 5, 2, 8, 4],
    [3, 15, 0, 6, 10, 1, 13, 8, 9, 4, 5, 11, 12, 7, 2, 14]],
   [[2, 12, 4, 1, 7, 10, 11, 6, 8, 5, 3, 15, 13, 0, 14, 9],
    [14, 11, 2, 12, 4, 7, 13, 1, 5, 0, 15, 10, 3, 9, 8, 6],
    [4, 2, 1, 11, 10, 13, 7, 8, 15, 9, 12, 5, 6, 3, 0, 14],
    [11, 8, 12, 7, 1, 14, 2, 13, 6, 15, 0, 9, 10, 4, 5, 3]],
   [[12, 1, 10, 15, 9, 2, 6, 8, 0, 13, 3, 4, 14, 7, 5, 11],
    [10, 15, 4, 2, 7, 12, 9, 5, 6, 1, 13, 14, 0, 11, 3, 8],
    [9, 14, 15, 5, 2, 8, 12, 3, 7, 0, 4, 10, 1, 13, 11, 6],
    [4, 3, 2, 12, 9, 5, 15, 10, 11, 14, 1, 7, 6, 0, 8, 13]],
   [[4, 11, 2, 14, 15, 0, 8, 13, 3, 12, 9, 7, 5, 10, 6, 1],
    [13, 0, 11, 7, 4, 9, 1, 10, 14, 3, 5, 12, 2, 15, 8, 6],
    [1, 4, 11, 13, 12, 3, 7, 14, 10, 15, 6, 8, 0, 5, 9, 2],
    [6, 11, 13, 8, 1, 4, 10, 7, 9, 5, 0, 15, 14, 2, 3, 12]],
   [[13, 2, 8, 4, 6, 15, 11, 1, 10, 9, 3, 14, 5, 0, 12, 7],
    [1, 15, 13, 8, 10, 3, 7, 4, 12, 5, 6, 11, 0, 14, 9, 2],
    [7, 11, 4, 1, 9, 12, 14, 2, 0, 6, 10, 13, 15, 3, 5, 8],
    [2, 1, 14, 7, 4, 10, 8, 13, 15, 12, 9, 0, 3, 5, 6, 11]]]

/-- `S_j` (counted from 0) on six bits: the first and the last choose the row, the middle ones the column. -/
def select (j : Nat) (b : Bits) : Bits :=
  bits 4 (((S.getD j []).getD (number (choose [1, 6] b)) []).getD (number (choose [2, 3, 4, 5] b)) 0)

/-- The cipher function `f`. -/
def f (r k : Bits) : Bits :=
  let b := add (choose E r) k
  choose P ((List.range 8).flatMap fun j => select j ((b.drop (6 * j)).take 6))

/-- `PC-1`, the half for `C`. -/
def PC1C : List Nat :=
  [57, 49, 41, 33, 25, 17, 9,
   1, 58, 50, 42, 34, 26, 18,
   10, 2, 59, 51, 43, 35, 27,
   19, 11, 3, 60, 52, 44, 36]

/-- `PC-1`, the half for `D`. -/
def PC1D : List Nat :=
  [63, 55, 47, 39, 31, 23, 15,
   7, 62, 54, 46, 38, 30, 22,
   14, 6, 61, 53, 45, 37, 29,
   21, 13, 5, 28, 20, 12, 4]

/-- `PC-2`. -/
def PC2 : List Nat :=
  [14, 17, 11, 24, 1, 5,
   3, 28, 15, 6, 21, 10,
   23, 19, 12, 4, 26, 8,
   16, 7, 27, 20, 13, 2,
   41, 52, 31, 37, 47, 55,
   30, 40, 51, 45, 33, 48,
   44, 49, 39, 56, 34, 53,
   46, 42, 50, 36, 29, 32]

/-- The left shifts: one place in the iterations 1, 2, 9 and 16, else two. -/
def shifts (n : Nat) : Nat := if n = 1 ∨ n = 2 ∨ n = 9 ∨ n = 16 then 1 else 2

/-- A circular left shift. -/
def rotate (k : Nat) (s : Bits) : Bits := s.drop k ++ s.take k

/-- `(C_n, D_n)` for a key of 64 bits. -/
def CD (key : Bits) : Nat → Bits × Bits
  | 0 => (choose PC1C key, choose PC1D key)
  | n + 1 => (rotate (shifts (n + 1)) (CD key n).1, rotate (shifts (n + 1)) (CD key n).2)

/-- `K_n`, for `n` from 1 to 16. -/
def K (key : Bits) (n : Nat) : Bits := choose PC2 ((CD key n).1 ++ (CD key n).2)

/-- The cipher with the keys in the order given. -/
def crypt (keys : List Bits) (block : Bits) : Bits :=
  let b := choose IP block
  let lr := keys.foldl (fun (l, r) k => (r, add l (f r k))) (b.take 32, b.drop 32)
  choose IPinv (lr.2 ++ lr.1)

/-- The bits of eight octets. -/
def ofOctets (b : Bytes) : Bits := bits 64 (num b)

/-- The octets of 64 bits. -/
def toOctets (s : Bits) : Bytes := be 8 (number s)

/-- The sixteen keys. -/
def keys (key : Bytes) : List Bits := (List.range' 1 16).map (K (ofOctets key))

/-- DES enciphering with a key of eight octets. -/
def encrypt (key block : Bytes) : Bytes := toOctets (crypt (keys key) (ofOctets block))

/-- DES deciphering: the keys in the opposite order. -/
def decrypt (key block : Bytes) : Bytes := toOctets (crypt (keys key).reverse (ofOctets block))

/-- Triple-DES with three keys (RFC 4880, 9.2: DES-EDE, 168 bit key derived from 192). -/
def tripleEncrypt (key block : Bytes) : Bytes :=
  encrypt ((key.drop 16).take 8) (decrypt ((key.drop 8).take 8) (encrypt (key.take 8) block))

end OpenPGP.Std.Des
