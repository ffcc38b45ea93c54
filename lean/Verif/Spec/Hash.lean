import Verif.Base
import Mathlib.Data.Nat.Nth
import Mathlib.Data.Nat.Prime.Defs
import Mathlib.Data.Nat.Sqrt
import Mathlib.Analysis.SpecialFunctions.Trigonometric.Basic

/-!
# The hash functions as their standards define them

RFC 1321 (MD5), FIPS 180-4 (SHA-1, SHA-224, SHA-256, SHA-384, SHA-512) and the RIPEMD-160 paper (Dobbertin,
Bosselaers, Preneel 1996).  Written from the standards; nothing here refers to the model of the code.
-/
namespace OpenPGP.Std

/-- Padding (RFC 1321 3.1-3.2, FIPS 180-4 5.1): a one bit, the least number of zero bits making the total a
multiple of the block size, and the bit length of the message encoded by `enc` in `lenOctets` octets. -/
def pad (block lenOctets : Nat) (enc : Nat → Bytes) (m : Bytes) : Bytes :=
  m ++ [0x80] ++ List.replicate ((block - (m.length + 1 + lenOctets) % block) % block) 0 ++ enc (8 * m.length)

/-- The `i`-th block of a padded message. -/
def blockOf (block : Nat) (p : Bytes) (i : Nat) : Bytes := (p.drop (i * block)).take block

/-- Iterated hashing (Merkle-Damgård). -/
def iterate {S : Type} (block : Nat) (compress : S → Bytes → S) (init : S) (p : Bytes) : S :=
  ((List.range (p.length / block)).map (blockOf block p)).foldl compress init

/-- The `i`-th word of a block, most significant octet first. -/
def wordBE (octets : Nat) (b : Bytes) (i : Nat) : BitVec (8 * octets) :=
  BitVec.ofNat _ (num ((b.drop (octets * i)).take octets))

/-- The `i`-th word of a block, least significant octet first. -/
def wordLE (octets : Nat) (b : Bytes) (i : Nat) : BitVec (8 * octets) :=
  BitVec.ofNat _ (num ((b.drop (octets * i)).take octets).reverse)

/-- `n` in `w` octets, most significant first / least significant first. -/
def encBE (w n : Nat) : Bytes := be w n
def encLE (w n : Nat) : Bytes := (be w n).reverse

/-- The greatest `r` with `r^3 ≤ n`. -/
def cbrt (n : Nat) : Nat := Nat.findGreatest (fun r => r ^ 3 ≤ n) n

/-- The `t`-th prime, from 0. -/
noncomputable def prime (t : Nat) : Nat := Nat.nth Nat.Prime t

/-! ## SHA-1 (FIPS 180-4, 6.1) -/

def ch {w : Nat} (x y z : BitVec w) : BitVec w := (x &&& y) ^^^ (~~~x &&& z)
def parity {w : Nat} (x y z : BitVec w) : BitVec w := x ^^^ y ^^^ z
def maj {w : Nat} (x y z : BitVec w) : BitVec w := (x &&& y) ^^^ (x &&& z) ^^^ (y &&& z)

abbrev State5 := BitVec 32 × BitVec 32 × BitVec 32 × BitVec 32 × BitVec 32

/-- 6.1.2 step 1. -/
def sha1W (b : Bytes) (t : Nat) : BitVec 32 :=
  if _h : t < 16 then wordBE 4 b t
  else (sha1W b (t - 3) ^^^ sha1W b (t - 8) ^^^ sha1W b (t - 14) ^^^ sha1W b (t - 16)).rotateLeft 1

/-- 4.1.1. -/
def sha1f (t : Nat) : BitVec 32 → BitVec 32 → BitVec 32 → BitVec 32 :=
  if t < 20 then ch else if t < 40 then parity else if t < 60 then maj else parity

/-- 4.2.1. -/
def sha1K (t : Nat) : BitVec 32 :=
  if t < 20 then 0x5a827999 else if t < 40 then 0x6ed9eba1 else if t < 60 then 0x8f1bbcdc else 0xca62c1d6

/-- 6.1.2 step 3. -/
def sha1Rounds (b : Bytes) (s : State5) : Nat → State5
  | 0 => s
  | t + 1 =>
    let (a, b', c, d, e) := sha1Rounds b s t
    (a.rotateLeft 5 + sha1f t b' c d + e + sha1K t + sha1W b t, a, b'.rotateLeft 30, c, d)

/-- 6.1.2 step 4. -/
def sha1Compress (s : State5) (b : Bytes) : State5 :=
  let (a, b', c, d, e) := sha1Rounds b s 80
  (a + s.1, b' + s.2.1, c + s.2.2.1, d + s.2.2.2.1, e + s.2.2.2.2)

def out5 (enc : Nat → Nat → Bytes) (s : State5) : Bytes :=
  enc 4 s.1.toNat ++ enc 4 s.2.1.toNat ++ enc 4 s.2.2.1.toNat ++ enc 4 s.2.2.2.1.toNat ++ enc 4 s.2.2.2.2.toNat

/-- SHA-1. -/
def sha1 (m : Bytes) : Bytes :=
  out5 encBE (iterate 64 sha1Compress (0x67452301, 0xefcdab89, 0x98badcfe, 0x10325476, 0xc3d2e1f0)
    (pad 64 8 (encBE 8) m))

/-! ## SHA-2 (FIPS 180-4, 6.2-6.5) -/

structure State8 (w : Nat) where
  (a b c d e f g h : BitVec w)

/-- The parameters in which the members of the family differ: word size in octets, rotation amounts of
`Σ0`, `Σ1`, `σ0`, `σ1` (4.1.2, 4.1.3) and the number of rounds. -/
structure Sha2Params where
  octets : Nat
  (Sig0 Sig1 : Nat × Nat × Nat)
  (sig0 sig1 : Nat × Nat × Nat)
  rounds : Nat

def p256 : Sha2Params := ⟨4, (2, 13, 22), (6, 11, 25), (7, 18, 3), (17, 19, 10), 64⟩
def p512 : Sha2Params := ⟨8, (28, 34, 39), (14, 18, 41), (1, 8, 7), (19, 61, 6), 80⟩

def bigSigma {w : Nat} (r : Nat × Nat × Nat) (x : BitVec w) : BitVec w :=
  x.rotateRight r.1 ^^^ x.rotateRight r.2.1 ^^^ x.rotateRight r.2.2
def smallSigma {w : Nat} (r : Nat × Nat × Nat) (x : BitVec w) : BitVec w :=
  x.rotateRight r.1 ^^^ x.rotateRight r.2.1 ^^^ (x >>> r.2.2)

/-- 4.2.2, 4.2.3: the first bits of the fractional parts of the cube roots of the first primes, for words of
`w` bits. -/
noncomputable def sha2K (w t : Nat) : BitVec w := BitVec.ofNat w (cbrt (prime t * 2 ^ (3 * w)))

/-- 6.2.2, 6.4.2 step 1. -/
def sha2W (p : Sha2Params) (b : Bytes) (t : Nat) : BitVec (8 * p.octets) :=
  if _h : t < 16 then wordBE p.octets b t
  else smallSigma p.sig1 (sha2W p b (t - 2)) + sha2W p b (t - 7) + smallSigma p.sig0 (sha2W p b (t - 15)) +
    sha2W p b (t - 16)

/-- 6.2.2, 6.4.2 step 3. -/
noncomputable def sha2Rounds (p : Sha2Params) (b : Bytes) (s : State8 (8 * p.octets)) : Nat → State8 (8 * p.octets)
  | 0 => s
  | t + 1 =>
    let r := sha2Rounds p b s t
    let t1 := r.h + bigSigma p.Sig1 r.e + ch r.e r.f r.g + sha2K (8 * p.octets) t + sha2W p b t
    let t2 := bigSigma p.Sig0 r.a + maj r.a r.b r.c
    ⟨t1 + t2, r.a, r.b, r.c, r.d + t1, r.e, r.f, r.g⟩

/-- 6.2.2, 6.4.2 step 4. -/
noncomputable def sha2Compress (p : Sha2Params) (s : State8 (8 * p.octets)) (b : Bytes) : State8 (8 * p.octets) :=
  let r := sha2Rounds p b s p.rounds
  ⟨r.a + s.a, r.b + s.b, r.c + s.c, r.d + s.d, r.e + s.e, r.f + s.f, r.g + s.g, r.h + s.h⟩

/-- 5.3: the first bits of the fractional parts of the square roots of the eight primes from the `i`-th on. -/
noncomputable def sqrtFrac (w i : Nat) : BitVec w := BitVec.ofNat w (Nat.sqrt (prime i * 2 ^ (2 * w)))

noncomputable def sqrtInit (w i : Nat) : State8 w :=
  ⟨sqrtFrac w i, sqrtFrac w (i + 1), sqrtFrac w (i + 2), sqrtFrac w (i + 3), sqrtFrac w (i + 4),
    sqrtFrac w (i + 5), sqrtFrac w (i + 6), sqrtFrac w (i + 7)⟩

/-- 5.3.2: SHA-224 starts from the second 32 bits of the fractional parts of the square roots of the 9th to
16th primes. -/
noncomputable def sha224Init : State8 32 :=
  let s := sqrtInit 64 8
  ⟨s.a.setWidth 32, s.b.setWidth 32, s.c.setWidth 32, s.d.setWidth 32, s.e.setWidth 32, s.f.setWidth 32,
    s.g.setWidth 32, s.h.setWidth 32⟩

def out8 (octets : Nat) {w : Nat} (s : State8 w) : Bytes :=
  encBE octets s.a.toNat ++ encBE octets s.b.toNat ++ encBE octets s.c.toNat ++ encBE octets s.d.toNat ++
    encBE octets s.e.toNat ++ encBE octets s.f.toNat ++ encBE octets s.g.toNat ++ encBE octets s.h.toNat

/-- SHA-256. -/
noncomputable def sha256 (m : Bytes) : Bytes :=
  out8 4 (iterate 64 (sha2Compress p256) (sqrtInit 32 0) (pad 64 8 (encBE 8) m))

/-- SHA-224: the leftmost 224 bits. -/
noncomputable def sha224 (m : Bytes) : Bytes :=
  (out8 4 (iterate 64 (sha2Compress p256) sha224Init (pad 64 8 (encBE 8) m))).take 28

/-- SHA-512. -/
noncomputable def sha512 (m : Bytes) : Bytes :=
  out8 8 (iterate 128 (sha2Compress p512) (sqrtInit 64 0) (pad 128 16 (encBE 16) m))

/-- SHA-384: the leftmost 384 bits. -/
noncomputable def sha384 (m : Bytes) : Bytes :=
  (out8 8 (iterate 128 (sha2Compress p512) (sqrtInit 64 8) (pad 128 16 (encBE 16) m))).take 48

/-! ## MD5 (RFC 1321) -/

abbrev State4 := BitVec 32 × BitVec 32 × BitVec 32 × BitVec 32

/-- 3.4: the auxiliary functions `F`, `G`, `H`, `I`. -/
def md5f (round : Nat) (x y z : BitVec 32) : BitVec 32 :=
  match round with
  | 0 => (x &&& y) ||| (~~~x &&& z)
  | 1 => (x &&& z) ||| (y &&& ~~~z)
  | 2 => x ^^^ y ^^^ z
  | _ => y ^^^ (x ||| ~~~z)

/-- 3.4: the message word used by step `i` of a round. -/
def md5k (round i : Nat) : Nat :=
  match round with
  | 0 => i
  | 1 => (1 + 5 * i) % 16
  | 2 => (5 + 3 * i) % 16
  | _ => 7 * i % 16

/-- 3.4: the shift of step `i` of a round. -/
def md5s (round i : Nat) : Nat :=
  (match round with
  | 0 => [7, 12, 17, 22]
  | 1 => [5, 9, 14, 20]
  | 2 => [4, 11, 16, 23]
  | _ => [6, 10, 15, 21]).getD (i % 4) 0

/-- 3.4: "Let T[i] denote the i-th element of the table, which is equal to the integer part of 4294967296 times abs(sin(i)), where i
is in radians", `i` from 1 to 64. -/
noncomputable def md5T (i : Nat) : BitVec 32 := BitVec.ofNat 32 ⌊4294967296 * |Real.sin i|⌋₊

/-- 3.4: step `t` of the 64: `a = b + ((a + f(b,c,d) + X[k] + T[i]) <<< s)`, after which the names of the
registers are rotated (`ABCD`, `DABC`, `CDAB`, `BCDA`). -/
noncomputable def md5Steps (b : Bytes) (s : State4) : Nat → State4
  | 0 => s
  | t + 1 =>
    let (a, b', c, d) := md5Steps b s t
    (d, b' + (a + md5f (t / 16) b' c d + wordLE 4 b (md5k (t / 16) (t % 16)) + md5T (t + 1)).rotateLeft
      (md5s (t / 16) (t % 16)), b', c)

noncomputable def md5Compress (s : State4) (b : Bytes) : State4 :=
  let (a, b', c, d) := md5Steps b s 64
  (a + s.1, b' + s.2.1, c + s.2.2.1, d + s.2.2.2)

/-- MD5. -/
noncomputable def md5 (m : Bytes) : Bytes :=
  let s := iterate 64 md5Compress (0x67452301, 0xefcdab89, 0x98badcfe, 0x10325476) (pad 64 8 (encLE 8) m)
  encLE 4 s.1.toNat ++ encLE 4 s.2.1.toNat ++ encLE 4 s.2.2.1.toNat ++ encLE 4 s.2.2.2.toNat

/-! ## RIPEMD-160 -/

/-- The five boolean functions. -/
def rmdf (round : Nat) (x y z : BitVec 32) : BitVec 32 :=
  match round with
  | 0 => x ^^^ y ^^^ z
  | 1 => (x &&& y) ||| (~~~x &&& z)
  | 2 => (x ||| ~~~y) ^^^ z
  | 3 => (x &&& z) ||| (y &&& ~~~z)
  | _ => x ^^^ (y ||| ~~~z)

/-- The permutations `ρ` and `π` of the message words. -/
def rho (i : Nat) : Nat := [7, 4, 13, 1, 10, 6, 15, 3, 12, 0, 9, 5, 2, 14, 11, 8].getD i 0
def pi (i : Nat) : Nat := (9 * i + 5) % 16

/-- Message word of step `i` of a round: left line `ρ^round`, right line `ρ^round ∘ π`. -/
def rmdLeftWord (round i : Nat) : Nat := rho^[round] i
def rmdRightWord (round i : Nat) : Nat := rho^[round] (pi i)

/-- The rotation used when word `X_i` is processed in a round (the same for both lines). -/
def rmdShift (round i : Nat) : Nat :=
  (match round with
  | 0 => [11, 14, 15, 12, 5, 8, 7, 9, 11, 13, 14, 15, 6, 7, 9, 8]
  | 1 => [12, 13, 11, 15, 6, 9, 9, 7, 12, 15, 11, 13, 7, 8, 7, 7]
  | 2 => [13, 15, 14, 11, 7, 7, 6, 8, 13, 14, 13, 12, 5, 5, 6, 9]
  | 3 => [14, 11, 12, 14, 8, 6, 5, 5, 15, 12, 15, 14, 9, 9, 8, 6]
  | _ => [15, 12, 13, 13, 9, 5, 8, 6, 14, 11, 12, 11, 8, 6, 5, 5]).getD i 0

/-- The added constants: integer parts of `2^30` times the square roots of 2, 3, 5, 7 (left line) and the
cube roots of 2, 3, 5, 7 (right line). -/
def rmdLeftK (round : Nat) : BitVec 32 :=
  match round with
  | 0 => 0
  | 1 => BitVec.ofNat 32 (Nat.sqrt (2 * 2 ^ 60))
  | 2 => BitVec.ofNat 32 (Nat.sqrt (3 * 2 ^ 60))
  | 3 => BitVec.ofNat 32 (Nat.sqrt (5 * 2 ^ 60))
  | _ => BitVec.ofNat 32 (Nat.sqrt (7 * 2 ^ 60))
def rmdRightK (round : Nat) : BitVec 32 :=
  match round with
  | 0 => BitVec.ofNat 32 (cbrt (2 * 2 ^ 90))
  | 1 => BitVec.ofNat 32 (cbrt (3 * 2 ^ 90))
  | 2 => BitVec.ofNat 32 (cbrt (5 * 2 ^ 90))
  | 3 => BitVec.ofNat 32 (cbrt (7 * 2 ^ 90))
  | _ => 0

/-- One step of a line: `f`, message word, constant and rotation. -/
def rmdStep (f : BitVec 32 → BitVec 32 → BitVec 32 → BitVec 32) (x k : BitVec 32) (s : Nat) : State5 → State5
  | (a, b, c, d, e) => (e, (a + f b c d + x + k).rotateLeft s + e, b, c.rotateLeft 10, d)

/-- The left line uses the functions in the order 1 … 5, the right line in the order 5 … 1. -/
def rmdLeft (b : Bytes) (s : State5) : Nat → State5
  | 0 => s
  | t + 1 => rmdStep (rmdf (t / 16)) (wordLE 4 b (rmdLeftWord (t / 16) (t % 16))) (rmdLeftK (t / 16))
      (rmdShift (t / 16) (rmdLeftWord (t / 16) (t % 16))) (rmdLeft b s t)
def rmdRight (b : Bytes) (s : State5) : Nat → State5
  | 0 => s
  | t + 1 => rmdStep (rmdf (4 - t / 16)) (wordLE 4 b (rmdRightWord (t / 16) (t % 16))) (rmdRightK (t / 16))
      (rmdShift (t / 16) (rmdRightWord (t / 16) (t % 16))) (rmdRight b s t)

/-- The final mixing of the two lines. -/
def rmdCompress : State5 → Bytes → State5
  | s@(h0, h1, h2, h3, h4), b =>
    let (a, b1, c, d, e) := rmdLeft b s 80
    let (a', b', c', d', e') := rmdRight b s 80
    (h1 + c + d', h2 + d + e', h3 + e + a', h4 + a + b', h0 + b1 + c')

/-- RIPEMD-160. -/
def ripemd160 (m : Bytes) : Bytes :=
  out5 encLE (iterate 64 rmdCompress (0x67452301, 0xefcdab89, 0x98badcfe, 0x10325476, 0xc3d2e1f0)
    (pad 64 8 (encLE 8) m))

/-- The hash function named by an OpenPGP hash algorithm number (RFC 4880 9.4). -/
noncomputable def hashOf (alg : UInt8) : Option (Bytes → Bytes) :=
  if alg = 1 then some md5
  else if alg = 2 then some sha1
  else if alg = 3 then some ripemd160
  else if alg = 8 then some sha256
  else if alg = 9 then some sha384
  else if alg = 10 then some sha512
  else if alg = 11 then some sha224
  else none

end OpenPGP.Std
