import Verif.Base

/-!
# Twofish

As in section 4 of "Twofish: A 128-Bit Block Cipher" (Schneier, Kelsey, Whiting, Wagner, Hall, Ferguson, 1998).  Words are
little-endian.  Nothing here refers to the model of the code.
-/
namespace OpenPGP.Std.Twofish

/-- Multiplication by `x` modulo a polynomial of degree eight, given without its leading term. -/
def timesX (p a : BitVec 8) : BitVec 8 := (a <<< 1) ^^^ (if a.msb then p else 0)

/-- `x^i · a`. -/
def timesPow (p a : BitVec 8) : Nat → BitVec 8
  | 0 => a
  | i + 1 => timesX p (timesPow p a i)

/-- `a · b` in GF(2^8) modulo the polynomial: the sum of `x^i · a` over the terms `x^i` of `b`. -/
def mul (p a b : BitVec 8) : BitVec 8 :=
  (List.range 8).foldl (fun s i => s ^^^ (if b.getLsbD i then timesPow p a i else 0)) 0

/-- `v(x) = x^8 + x^6 + x^5 + x^3 + 1` (4.2). -/
def v : BitVec 8 := 0x69

/-- `w(x) = x^8 + x^6 + x^3 + x^2 + 1` (4.3). -/
def w : BitVec 8 := 0x4d

/-- Octet `j` of a word, the least significant first. -/
def byte (x : BitVec 32) (j : Nat) : BitVec 8 := x.extractLsb' (8 * j) 8

/-- The word with the octets `b0 … b3`, the least significant first. -/
def ofBytes (b0 b1 b2 b3 : BitVec 8) : BitVec 32 := b3 ++ b2 ++ b1 ++ b0

/-- `ROR4(b, 1)`. -/
def ror4 (b : BitVec 4) : BitVec 4 := b.rotateRight 1

/-- The permutation made of four tables (4.3.5). -/
def qPerm (t0 t1 t2 t3 : List (BitVec 4)) (x : BitVec 8) : BitVec 8 :=
  let a0 : BitVec 4 := x.extractLsb' 4 4
  let b0 : BitVec 4 := x.extractLsb' 0 4
  let a1 := a0 ^^^ b0
  let b1 := a0 ^^^ ror4 b0 ^^^ 8 * a0
  let a2 := t0.getD a1.toNat 0
  let b2 := t1.getD b1.toNat 0
  let a3 := a2 ^^^ b2
  let b3 := a2 ^^^ ror4 b2 ^^^ 8 * a2
  let a4 := t2.getD a3.toNat 0
  let b4 := t3.getD b3.toNat 0
  b4 ++ a4

/-- `q0` (4.3.5). -/
def q0 : BitVec 8 → BitVec 8 := qPerm
  [0x8, 0x1, 0x7, 0xD, 0x6, 0xF, 0x3, 0x2, 0x0, 0xB, 0x5, 0x9, 0xE, 0xC, 0xA, 0x4]
  [0xE, 0xC, 0xB, 0x8, 0x1, 0x2, 0x3, 0x5, 0xF, 0x4, 0xA, 0x6, 0x7, 0x0, 0x9, 0xD]
  [0xB, 0xA, 0x5, 0xE, 0x6, 0xD, 0x9, 0x0, 0xC, 0x8, 0xF, 0x3, 0x2, 0x4, 0x7, 0x1]
  [0xD, 0x7, 0xF, 0x4, 0x1, 0x2, 0x6, 0xE, 0x9, 0xB, 0x3, 0x0, 0x8, 0x5, 0xC, 0xA]

/-- `q1` (4.3.5). -/
def q1 : BitVec 8 → BitVec 8 := qPerm
  [0x2, 0x8, 0xB, 0xD, 0xF, 0x7, 0x6, 0xE, 0x3, 0x1, 0x9, 0x4, 0x0, 0xA, 0xC, 0x5]
  [0x1, 0xE, 0x2, 0xB, 0x4, 0xC, 0x3, 0x7, 0x6, 0xD, 0xA, 0x5, 0xF, 0x9, 0x0, 0x8]
  [0x4, 0xC, 0x7, 0x5, 0x1, 0x6, 0x9, 0xA, 0x0, 0xE, 0xD, 0x8, 0x2, 0xB, 0x3, 0xF]
  [0xB, 0x9, 0x5, 0x1, 0xC, 0x3, 0xD, 0xE, 0x6, 0x4, 0x7, 0xF, 0x2, 0x0, 0x8, 0xA]

/-- The MDS matrix (4.2) times a column. -/
def mds (y0 y1 y2 y3 : BitVec 8) : BitVec 32 :=
  let row (a b c d : BitVec 8) := mul v a y0 ^^^ mul v b y1 ^^^ mul v c y2 ^^^ mul v d y3
  ofBytes (row 0x01 0xEF 0x5B 0x5B) (row 0x5B 0xEF 0xEF 0x01) (row 0xEF 0x5B 0x01 0xEF) (row 0xEF 0x01 0xEF 0x5B)

/-- The function `h` (4.3.2) with the list `L` of `k = 2`, 3 or 4 words. -/
def h (X : BitVec 32) (L : List (BitVec 32)) : BitVec 32 :=
  let l (i j : Nat) := byte (L.getD i 0) j
  let y := (byte X 0, byte X 1, byte X 2, byte X 3)
  let y := if L.length = 4 then
      (q1 y.1 ^^^ l 3 0, q0 y.2.1 ^^^ l 3 1, q0 y.2.2.1 ^^^ l 3 2, q1 y.2.2.2 ^^^ l 3 3) else y
  let y := if 3 ≤ L.length then
      (q1 y.1 ^^^ l 2 0, q1 y.2.1 ^^^ l 2 1, q0 y.2.2.1 ^^^ l 2 2, q0 y.2.2.2 ^^^ l 2 3) else y
  mds (q1 (q0 (q0 y.1 ^^^ l 1 0) ^^^ l 0 0))
    (q0 (q0 (q1 y.2.1 ^^^ l 1 1) ^^^ l 0 1))
    (q1 (q1 (q0 y.2.2.1 ^^^ l 1 2) ^^^ l 0 2))
    (q0 (q1 (q1 y.2.2.2 ^^^ l 1 3) ^^^ l 0 3))

/-- The octet `m_i` of the key. -/
def m (key : Bytes) (i : Nat) : BitVec 8 := (key.getD i 0).toBitVec

/-- The word `M_i` of the key (4.3). -/
def M (key : Bytes) (i : Nat) : BitVec 32 := ofBytes (m key (4 * i)) (m key (4 * i + 1)) (m key (4 * i + 2)) (m key (4 * i + 3))

/-- A row of the RS matrix times eight octets of the key. -/
def rsRow (key : Bytes) (i : Nat) (row : List (BitVec 8)) : BitVec 8 :=
  (List.range 8).foldl (fun s j => s ^^^ mul w (row.getD j 0) (m key (8 * i + j))) 0

/-- `S_i` (4.3): the RS matrix times the octets `m_(8i) … m_(8i+7)`. -/
def Sword (key : Bytes) (i : Nat) : BitVec 32 :=
  ofBytes (rsRow key i [0x01, 0xA4, 0x55, 0x87, 0x5A, 0x58, 0xDB, 0x9E])
    (rsRow key i [0xA4, 0x56, 0x82, 0xF3, 0x1E, 0xC6, 0x68, 0xE5])
    (rsRow key i [0x02, 0xA1, 0xFC, 0xC1, 0x47, 0xAE, 0x3D, 0x19])
    (rsRow key i [0xA4, 0x55, 0x87, 0x5A, 0x58, 0xDB, 0x9E, 0x03])

/-- `k = N / 64`. -/
def k (key : Bytes) : Nat := key.length / 8

/-- `M_e` (4.3). -/
def Me (key : Bytes) : List (BitVec 32) := (List.range (k key)).map fun i => M key (2 * i)

/-- `M_o` (4.3). -/
def Mo (key : Bytes) : List (BitVec 32) := (List.range (k key)).map fun i => M key (2 * i + 1)

/-- `S`: "note that S lists the words in reverse order" (4.3). -/
def S (key : Bytes) : List (BitVec 32) := ((List.range (k key)).map (Sword key)).reverse

/-- `ρ`. -/
def rho : BitVec 32 := BitVec.ofNat 32 (2 ^ 24 + 2 ^ 16 + 2 ^ 8 + 2 ^ 0)

/-- `A_i` (4.3.4). -/
def A (key : Bytes) (i : Nat) : BitVec 32 := h (BitVec.ofNat 32 (2 * i) * rho) (Me key)

/-- `B_i` (4.3.4). -/
def B (key : Bytes) (i : Nat) : BitVec 32 := (h (BitVec.ofNat 32 (2 * i + 1) * rho) (Mo key)).rotateLeft 8

/-- The expanded key words `K_j`: `K_(2i) = A_i + B_i`, `K_(2i+1) = ROL(A_i + 2 B_i, 9)` (4.3.4). -/
def K (key : Bytes) (j : Nat) : BitVec 32 :=
  if j % 2 = 0 then A key (j / 2) + B key (j / 2) else (A key (j / 2) + 2 * B key (j / 2)).rotateLeft 9

/-- The function `g` (4.2, 4.3.3). -/
def g (key : Bytes) (X : BitVec 32) : BitVec 32 := h X (S key)

/-- Four words. -/
abbrev Block := BitVec 32 × BitVec 32 × BitVec 32 × BitVec 32

/-- Round `r` (4, 4.1). -/
def round (key : Bytes) : Block → Nat → Block := fun (r0, r1, r2, r3) r =>
  let t0 := g key r0
  let t1 := g key (r1.rotateLeft 8)
  let f0 := t0 + t1 + K key (2 * r + 8)
  let f1 := t0 + 2 * t1 + K key (2 * r + 9)
  ((r2 ^^^ f0).rotateRight 1, r3.rotateLeft 1 ^^^ f1, r0, r1)

/-- The word `P_i` of a block. -/
def word (b : Bytes) (i : Nat) : BitVec 32 := ofBytes (m b (4 * i)) (m b (4 * i + 1)) (m b (4 * i + 2)) (m b (4 * i + 3))

/-- The octets of a word. -/
def octets (x : BitVec 32) : Bytes := [⟨byte x 0⟩, ⟨byte x 1⟩, ⟨byte x 2⟩, ⟨byte x 3⟩]

/-- Twofish with a key of 16, 24 or 32 octets (4): input whitening, sixteen rounds, the last swap undone, output whitening. -/
def encrypt (key block : Bytes) : Bytes :=
  let r : Block := (word block 0 ^^^ K key 0, word block 1 ^^^ K key 1, word block 2 ^^^ K key 2, word block 3 ^^^ K key 3)
  let (r0, r1, r2, r3) := (List.range 16).foldl (round key) r
  octets (r2 ^^^ K key 4) ++ octets (r3 ^^^ K key 5) ++ octets (r0 ^^^ K key 6) ++ octets (r1 ^^^ K key 7)

end OpenPGP.Std.Twofish
