import Verif.Base

/-!
# CAST-128

As in RFC 2144, with the eight S-boxes of its appendix A as a parameter: `S i` is the table `S_i`, `i` from 1 to 8.  Nothing
here refers to the model of the code.
-/
namespace OpenPGP.Std.Cast128

/-- The S-boxes. -/
abbrev SBoxes := Nat → BitVec 8 → BitVec 32

/-- Octet `i` of sixteen octets, the first being 0. -/
def b (x : BitVec 128) (i : Nat) : BitVec 8 := x.extractLsb' (8 * (15 - i)) 8

/-- Word `i` of sixteen octets. -/
def w (x : BitVec 128) (i : Nat) : BitVec 32 := x.extractLsb' (32 * (3 - i)) 32

/-- Octet `i` of a word, the most significant being 0. -/
def o (x : BitVec 32) (i : Nat) : BitVec 8 := x.extractLsb' (8 * (3 - i)) 8

/-- `z0 … zF` from `x0 … xF` (RFC 2144, 2.4). -/
def zOf (S : SBoxes) (x : BitVec 128) : BitVec 128 :=
  let z0 := w x 0 ^^^ S 5 (b x 0xD) ^^^ S 6 (b x 0xF) ^^^ S 7 (b x 0xC) ^^^ S 8 (b x 0xE) ^^^ S 7 (b x 0x8)
  let z1 := w x 2 ^^^ S 5 (o z0 0) ^^^ S 6 (o z0 2) ^^^ S 7 (o z0 1) ^^^ S 8 (o z0 3) ^^^ S 8 (b x 0xA)
  let z2 := w x 3 ^^^ S 5 (o z1 3) ^^^ S 6 (o z1 2) ^^^ S 7 (o z1 1) ^^^ S 8 (o z1 0) ^^^ S 5 (b x 0x9)
  let z3 := w x 1 ^^^ S 5 (o z2 2) ^^^ S 6 (o z2 1) ^^^ S 7 (o z2 3) ^^^ S 8 (o z2 0) ^^^ S 6 (b x 0xB)
  z0 ++ z1 ++ z2 ++ z3

/-- `x0 … xF` from `z0 … zF` (2.4). -/
def xOf (S : SBoxes) (z : BitVec 128) : BitVec 128 :=
  let x0 := w z 2 ^^^ S 5 (b z 0x5) ^^^ S 6 (b z 0x7) ^^^ S 7 (b z 0x4) ^^^ S 8 (b z 0x6) ^^^ S 7 (b z 0x0)
  let x1 := w z 0 ^^^ S 5 (o x0 0) ^^^ S 6 (o x0 2) ^^^ S 7 (o x0 1) ^^^ S 8 (o x0 3) ^^^ S 8 (b z 0x2)
  let x2 := w z 1 ^^^ S 5 (o x1 3) ^^^ S 6 (o x1 2) ^^^ S 7 (o x1 1) ^^^ S 8 (o x1 0) ^^^ S 5 (b z 0x1)
  let x3 := w z 3 ^^^ S 5 (o x2 2) ^^^ S 6 (o x2 1) ^^^ S 7 (o x2 3) ^^^ S 8 (o x2 0) ^^^ S 6 (b z 0x3)
  x0 ++ x1 ++ x2 ++ x3

/-- A subkey: `S5[i] ^ S6[j] ^ S7[k] ^ S8[l] ^ Sn[m]` of the octets `i`, `j`, `k`, `l` and `m`. -/
def sub (S : SBoxes) (v : BitVec 128) (i j k l n m : Nat) : BitVec 32 :=
  S 5 (b v i) ^^^ S 6 (b v j) ^^^ S 7 (b v k) ^^^ S 8 (b v l) ^^^ S n (b v m)

/-- Sixteen subkeys from `x` and the last `x` (2.4). -/
def half (S : SBoxes) (x : BitVec 128) : List (BitVec 32) × BitVec 128 :=
  let z := zOf S x
  let k1 := [sub S z 0x8 0x9 0x7 0x6 5 0x2, sub S z 0xA 0xB 0x5 0x4 6 0x6, sub S z 0xC 0xD 0x3 0x2 7 0x9, sub S z 0xE 0xF 0x1 0x0 8 0xC]
  let x := xOf S z
  let k5 := [sub S x 0x3 0x2 0xC 0xD 5 0x8, sub S x 0x1 0x0 0xE 0xF 6 0xD, sub S x 0x7 0x6 0x8 0x9 7 0x3, sub S x 0x5 0x4 0xA 0xB 8 0x7]
  let z := zOf S x
  let k9 := [sub S z 0x3 0x2 0xC 0xD 5 0x9, sub S z 0x1 0x0 0xE 0xF 6 0xC, sub S z 0x7 0x6 0x8 0x9 7 0x2, sub S z 0x5 0x4 0xA 0xB 8 0x6]
  let x := xOf S z
  let k13 := [sub S x 0x8 0x9 0x7 0x6 5 0x3, sub S x 0xA 0xB 0x5 0x4 6 0x7, sub S x 0xC 0xD 0x3 0x2 7 0x8, sub S x 0xE 0xF 0x1 0x0 8 0xD]
  (k1 ++ k5 ++ k9 ++ k13, x)

/-- The octets of a string of at most sixteen, with zero octets appended (2.5). -/
def padded (key : Bytes) : BitVec 128 :=
  (List.range 16).foldl (fun v i => (v <<< 8) ||| (((key.getD i 0).toBitVec).setWidth 128)) 0

/-- `K_1 … K_16`. -/
def keysM (S : SBoxes) (key : Bytes) : List (BitVec 32) := (half S (padded key)).1

/-- `K_17 … K_32`. -/
def keysR (S : SBoxes) (key : Bytes) : List (BitVec 32) := (half S (half S (padded key)).2).1

/-- The masking key `Km_i = K_i`, `i` from 1 on (2.4.1). -/
def km (S : SBoxes) (key : Bytes) (i : Nat) : BitVec 32 := (keysM S key).getD (i - 1) 0

/-- The rotation key `Kr_i`: the last five bits of `K_(16+i)` (2.4.1). -/
def kr (S : SBoxes) (key : Bytes) (i : Nat) : Nat := ((keysR S key).getD (i - 1) 0).toNat % 32

/-- The three round functions (2.2): type 1 in rounds 1, 4, 7, …, type 2 in rounds 2, 5, 8, …, type 3 in rounds 3, 6, 9, …. -/
def f (S : SBoxes) (i : Nat) (D km : BitVec 32) (kr : Nat) : BitVec 32 :=
  if i % 3 = 1 then
    let I := (km + D).rotateLeft kr
    ((S 1 (o I 0) ^^^ S 2 (o I 1)) - S 3 (o I 2)) + S 4 (o I 3)
  else if i % 3 = 2 then
    let I := (km ^^^ D).rotateLeft kr
    ((S 1 (o I 0) - S 2 (o I 1)) + S 3 (o I 2)) ^^^ S 4 (o I 3)
  else
    let I := (km - D).rotateLeft kr
    ((S 1 (o I 0) + S 2 (o I 1)) ^^^ S 3 (o I 2)) - S 4 (o I 3)

/-- Round `i`: `L_i = R_(i-1)`, `R_i = L_(i-1) ^ f(R_(i-1), Km_i, Kr_i)` (2.1). -/
def round (S : SBoxes) (key : Bytes) : BitVec 32 × BitVec 32 → Nat → BitVec 32 × BitVec 32 := fun (L, R) i =>
  (R, L ^^^ f S i R (km S key i) (kr S key i))

/-- Twelve rounds for keys of up to 80 bits, sixteen for longer ones (2.5). -/
def rounds (key : Bytes) : Nat := if key.length ≤ 10 then 12 else 16

/-- The word of four octets. -/
def word (s : Bytes) (i : Nat) : BitVec 32 :=
  (s.getD i 0).toBitVec ++ (s.getD (i + 1) 0).toBitVec ++ (s.getD (i + 2) 0).toBitVec ++ (s.getD (i + 3) 0).toBitVec

/-- The octets of a word. -/
def octets (x : BitVec 32) : Bytes := [⟨o x 0⟩, ⟨o x 1⟩, ⟨o x 2⟩, ⟨o x 3⟩]

/-- CAST-128 with a key of 5 to 16 octets; the halves are exchanged at the end (2.1). -/
def encrypt (S : SBoxes) (key block : Bytes) : Bytes :=
  let (L, R) := (List.range' 1 (rounds key)).foldl (round S key) (word block 0, word block 4)
  octets R ++ octets L

end OpenPGP.Std.Cast128
