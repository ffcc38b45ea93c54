import Verif.Base

/-!
# Camellia

As RFC 3713 defines it; the S-box as in section 4 of the designers' specification ("Specification of Camellia - a
128-bit Block Cipher", 2001), where it is given algebraically.  Bits are counted from 1, the leftmost first.  Nothing here
refers to the model of the code.
-/
namespace OpenPGP.Std.Camellia

/-- A linear function of eight bits: bit `i` of the result is the sum of the bits listed in row `i`. -/
def linear (rows : List (List Nat)) (a : BitVec 8) : BitVec 8 :=
  BitVec.ofNat 8 (rows.foldl (fun v row => 2 * v + (row.foldl (fun s i => Bool.xor s (a.getMsbD (i - 1))) false).toNat) 0)

/-- `f`. -/
def f : BitVec 8 → BitVec 8 := linear [[6, 2], [7, 1], [8, 5, 3], [8, 3], [7, 4], [5, 2], [8, 1], [6, 4]]

/-- `h`. -/
def h : BitVec 8 → BitVec 8 := linear [[5, 6, 2], [6, 2], [7, 4], [8, 2], [7, 3], [8, 1], [5, 1], [6, 3]]

/-- Multiplication by `β`, which is a zero of `x^8 + x^6 + x^5 + x^3 + 1`; bit `8 - i` is the coefficient of `β^i`. -/
def timesBeta (a : BitVec 8) : BitVec 8 := (a <<< 1) ^^^ (if a.msb then 0x69 else 0)

/-- `β^i · a`. -/
def timesPow (a : BitVec 8) : Nat → BitVec 8
  | 0 => a
  | i + 1 => timesBeta (timesPow a i)

/-- Multiplication in GF(2^8). -/
def mul (a b : BitVec 8) : BitVec 8 :=
  (List.range 8).foldl (fun p i => if b.getLsbD i then p ^^^ timesPow a i else p) 0

/-- `α = β^238`. -/
def alpha : BitVec 8 := timesPow 1 238

/-- The element `(a8 + a7 α + a6 α² + a5 α³) + (a4 + a3 α + a2 α² + a1 α³) β` of GF(2^8). -/
def element (a : BitVec 8) : BitVec 8 :=
  let p := [1, alpha, mul alpha alpha, mul alpha (mul alpha alpha)]
  let term := fun (i : Nat) (x : BitVec 8) => if a.getMsbD (i - 1) then x else 0
  let low := term 8 (p.getD 0 0) ^^^ term 7 (p.getD 1 0) ^^^ term 6 (p.getD 2 0) ^^^ term 5 (p.getD 3 0)
  let high := term 4 (p.getD 0 0) ^^^ term 3 (p.getD 1 0) ^^^ term 2 (p.getD 2 0) ^^^ term 1 (p.getD 3 0)
  low ^^^ timesBeta high

/-- The multiplicative inverse in GF(2^8), 0 for 0: `a^254`. -/
def inverse (a : BitVec 8) : BitVec 8 :=
  let a2 := mul a a
  let a4 := mul a2 a2
  let a8 := mul a4 a4
  let a16 := mul a8 a8
  let a32 := mul a16 a16
  let a64 := mul a32 a32
  let a128 := mul a64 a64
  mul a2 (mul a4 (mul a8 (mul a16 (mul a32 (mul a64 a128)))))

/-- The octet that stands for an element: the inverse of `element`, which is linear. -/
def ofElement (e : BitVec 8) : BitVec 8 :=
  (List.range 8).foldl (fun v i => if e.getLsbD i then v ^^^ ([0x1, 0x10, 0x19, 0x89, 0x14, 0x59, 0xcb, 0x76] : List (BitVec 8)).getD i 0 else v) 0

theorem ofElement_element : ∀ a : BitVec 8, ofElement (element a) = a ∧ element (ofElement a) = a := by decide +kernel

/-- `g`: the inverse in GF(2^8), written with `α` and `β`. -/
def g (a : BitVec 8) : BitVec 8 := ofElement (inverse (element a))

theorem element_g : ∀ a : BitVec 8, a ≠ 0 → mul (element a) (element (g a)) = 1 := by decide +kernel

/-- `SBOX1`. -/
def s1 (x : BitVec 8) : BitVec 8 := h (g (f (0xc5 ^^^ x))) ^^^ 0x6e

/-- `SBOX2[x] = SBOX1[x] <<< 1` (RFC 3713, 2.4.1). -/
def s2 (x : BitVec 8) : BitVec 8 := (s1 x).rotateLeft 1

/-- `SBOX3[x] = SBOX1[x] <<< 7`. -/
def s3 (x : BitVec 8) : BitVec 8 := (s1 x).rotateLeft 7

/-- `SBOX4[x] = SBOX1[x <<< 1]`. -/
def s4 (x : BitVec 8) : BitVec 8 := s1 (x.rotateLeft 1)

/-- The F-function (2.4.1). -/
def F (input ke : BitVec 64) : BitVec 64 :=
  let x := input ^^^ ke
  let t1 := s1 (x.extractLsb' 56 8)
  let t2 := s2 (x.extractLsb' 48 8)
  let t3 := s3 (x.extractLsb' 40 8)
  let t4 := s4 (x.extractLsb' 32 8)
  let t5 := s2 (x.extractLsb' 24 8)
  let t6 := s3 (x.extractLsb' 16 8)
  let t7 := s4 (x.extractLsb' 8 8)
  let t8 := s1 (x.extractLsb' 0 8)
  let y1 := t1 ^^^ t3 ^^^ t4 ^^^ t6 ^^^ t7 ^^^ t8
  let y2 := t1 ^^^ t2 ^^^ t4 ^^^ t5 ^^^ t7 ^^^ t8
  let y3 := t1 ^^^ t2 ^^^ t3 ^^^ t5 ^^^ t6 ^^^ t8
  let y4 := t2 ^^^ t3 ^^^ t4 ^^^ t5 ^^^ t6 ^^^ t7
  let y5 := t1 ^^^ t2 ^^^ t6 ^^^ t7 ^^^ t8
  let y6 := t2 ^^^ t3 ^^^ t5 ^^^ t7 ^^^ t8
  let y7 := t3 ^^^ t4 ^^^ t5 ^^^ t6 ^^^ t8
  let y8 := t1 ^^^ t4 ^^^ t5 ^^^ t6 ^^^ t7
  y1 ++ y2 ++ y3 ++ y4 ++ y5 ++ y6 ++ y7 ++ y8

/-- The FL-function (2.4.2). -/
def FL (input ke : BitVec 64) : BitVec 64 :=
  let x1 : BitVec 32 := input.extractLsb' 32 32
  let x2 : BitVec 32 := input.extractLsb' 0 32
  let k1 : BitVec 32 := ke.extractLsb' 32 32
  let k2 : BitVec 32 := ke.extractLsb' 0 32
  let x2 := x2 ^^^ (x1 &&& k1).rotateLeft 1
  let x1 := x1 ^^^ (x2 ||| k2)
  x1 ++ x2

/-- The inverse of the FL-function (2.4.3). -/
def FLinv (input ke : BitVec 64) : BitVec 64 :=
  let y1 : BitVec 32 := input.extractLsb' 32 32
  let y2 : BitVec 32 := input.extractLsb' 0 32
  let k1 : BitVec 32 := ke.extractLsb' 32 32
  let k2 : BitVec 32 := ke.extractLsb' 0 32
  let y1 := y1 ^^^ (y2 ||| k2)
  let y2 := y2 ^^^ (y1 &&& k1).rotateLeft 1
  y1 ++ y2

/-- The left and the right half. -/
def left (x : BitVec 128) : BitVec 64 := x.extractLsb' 64 64
def right (x : BitVec 128) : BitVec 64 := x.extractLsb' 0 64

/-- Two rounds with the subkeys `a`, `b`, on `(D1, D2)`. -/
def two (d : BitVec 64 × BitVec 64) (a b : BitVec 64) : BitVec 64 × BitVec 64 :=
  let D2 := d.2 ^^^ F d.1 a
  let D1 := d.1 ^^^ F D2 b
  (D1, D2)

/-- `KA` (2.2). -/
def KA (KL KR : BitVec 128) : BitVec 128 :=
  let D := KL ^^^ KR
  let d := two (left D, right D) 0xA09E667F3BCC908B 0xB67AE8584CAA73B2
  let d := two (d.1 ^^^ left KL, d.2 ^^^ right KL) 0xC6EF372FE94F82BE 0x54FF53A5F1D36F1C
  d.1 ++ d.2

/-- `KB` (2.2). -/
def KB (KL KR : BitVec 128) : BitVec 128 :=
  let D := KA KL KR ^^^ KR
  let d := two (left D, right D) 0x10E527FADE682D1D 0xB05688C2B3E6C1FD
  d.1 ++ d.2

/-- Six rounds: the subkeys `k i, …, k (i + 5)`. -/
def six (k : Nat → BitVec 64) (i : Nat) (d : BitVec 64 × BitVec 64) : BitVec 64 × BitVec 64 :=
  two (two (two d (k i) (k (i + 1))) (k (i + 2)) (k (i + 3))) (k (i + 4)) (k (i + 5))

/-- The layer of FL and its inverse. -/
def layer (a b : BitVec 64) (d : BitVec 64 × BitVec 64) : BitVec 64 × BitVec 64 := (FL d.1 a, FLinv d.2 b)

/-- The subkeys of a 128-bit key (2.2): `kw1 … kw4`, `k1 … k18`, `ke1 … ke4`. -/
def kw128 (KL KA : BitVec 128) : Nat → BitVec 64
  | 1 => left KL
  | 2 => right KL
  | 3 => left (KA.rotateLeft 111)
  | _ => right (KA.rotateLeft 111)

def k128 (KL KA : BitVec 128) : Nat → BitVec 64
  | 1 => left KA
  | 2 => right KA
  | 3 => left (KL.rotateLeft 15)
  | 4 => right (KL.rotateLeft 15)
  | 5 => left (KA.rotateLeft 15)
  | 6 => right (KA.rotateLeft 15)
  | 7 => left (KL.rotateLeft 45)
  | 8 => right (KL.rotateLeft 45)
  | 9 => left (KA.rotateLeft 45)
  | 10 => right (KL.rotateLeft 60)
  | 11 => left (KA.rotateLeft 60)
  | 12 => right (KA.rotateLeft 60)
  | 13 => left (KL.rotateLeft 94)
  | 14 => right (KL.rotateLeft 94)
  | 15 => left (KA.rotateLeft 94)
  | 16 => right (KA.rotateLeft 94)
  | 17 => left (KL.rotateLeft 111)
  | _ => right (KL.rotateLeft 111)

def ke128 (KL KA : BitVec 128) : Nat → BitVec 64
  | 1 => left (KA.rotateLeft 30)
  | 2 => right (KA.rotateLeft 30)
  | 3 => left (KL.rotateLeft 77)
  | _ => right (KL.rotateLeft 77)

/-- The subkeys of a 192- or 256-bit key (2.2): `kw1 … kw4`, `k1 … k24`, `ke1 … ke6`. -/
def kw256 (KL KB : BitVec 128) : Nat → BitVec 64
  | 1 => left KL
  | 2 => right KL
  | 3 => left (KB.rotateLeft 111)
  | _ => right (KB.rotateLeft 111)

def k256 (KL KR KA KB : BitVec 128) : Nat → BitVec 64
  | 1 => left KB
  | 2 => right KB
  | 3 => left (KR.rotateLeft 15)
  | 4 => right (KR.rotateLeft 15)
  | 5 => left (KA.rotateLeft 15)
  | 6 => right (KA.rotateLeft 15)
  | 7 => left (KB.rotateLeft 30)
  | 8 => right (KB.rotateLeft 30)
  | 9 => left (KL.rotateLeft 45)
  | 10 => right (KL.rotateLeft 45)
  | 11 => left (KA.rotateLeft 45)
  | 12 => right (KA.rotateLeft 45)
  | 13 => left (KR.rotateLeft 60)
  | 14 => right (KR.rotateLeft 60)
  | 15 => left (KB.rotateLeft 60)
  | 16 => right (KB.rotateLeft 60)
  | 17 => left (KL.rotateLeft 77)
  | 18 => right (KL.rotateLeft 77)
  | 19 => left (KR.rotateLeft 94)
  | 20 => right (KR.rotateLeft 94)
  | 21 => left (KA.rotateLeft 94)
  | 22 => right (KA.rotateLeft 94)
  | 23 => left (KL.rotateLeft 111)
  | _ => right (KL.rotateLeft 111)

def ke256 (KL KR KA : BitVec 128) : Nat → BitVec 64
  | 1 => left (KR.rotateLeft 30)
  | 2 => right (KR.rotateLeft 30)
  | 3 => left (KL.rotateLeft 60)
  | 4 => right (KL.rotateLeft 60)
  | 5 => left (KA.rotateLeft 77)
  | _ => right (KA.rotateLeft 77)

/-- Encryption with a 128-bit key (2.3.1). -/
def crypt128 (KL KA M : BitVec 128) : BitVec 128 :=
  let kw := kw128 KL KA
  let k := k128 KL KA
  let ke := ke128 KL KA
  let d := (left M ^^^ kw 1, right M ^^^ kw 2)
  let d := six k 1 d
  let d := layer (ke 1) (ke 2) d
  let d := six k 7 d
  let d := layer (ke 3) (ke 4) d
  let d := six k 13 d
  (d.2 ^^^ kw 3) ++ (d.1 ^^^ kw 4)

/-- Encryption with a 192- or 256-bit key (2.3.2). -/
def crypt256 (KL KR KA KB M : BitVec 128) : BitVec 128 :=
  let kw := kw256 KL KB
  let k := k256 KL KR KA KB
  let ke := ke256 KL KR KA
  let d := (left M ^^^ kw 1, right M ^^^ kw 2)
  let d := six k 1 d
  let d := layer (ke 1) (ke 2) d
  let d := six k 7 d
  let d := layer (ke 3) (ke 4) d
  let d := six k 13 d
  let d := layer (ke 5) (ke 6) d
  let d := six k 19 d
  (d.2 ^^^ kw 3) ++ (d.1 ^^^ kw 4)

/-- The 128 bits of sixteen octets. -/
def word (b : Bytes) : BitVec 128 := BitVec.ofNat 128 (num b)

/-- `KL` (2.2): the first 128 bits of the key. -/
def keyLeft (key : Bytes) : BitVec 128 := word (key.take 16)

/-- `KR` (2.2): zero for a key of 128 bits; for one of 192 bits the other 64 bits and their complement. -/
def keyRight (key : Bytes) : BitVec 128 :=
  if key.length = 16 then 0
  else if key.length = 24 then
    let r : BitVec 64 := BitVec.ofNat 64 (num (key.drop 16))
    r ++ ~~~r
  else word (key.drop 16)

/-- Camellia with a key of 16, 24 or 32 octets. -/
def encrypt (key block : Bytes) : Bytes :=
  let KL := keyLeft key
  let KR := keyRight key
  be 16 (if key.length = 16 then crypt128 KL (KA KL KR) (word block)
    else crypt256 KL KR (KA KL KR) (KB KL KR) (word block)).toNat

end OpenPGP.Std.Camellia
