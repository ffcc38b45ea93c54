import Verif.Model.Includes

/-!
# Model of the built-in hash functions

`src/Hashes/MerkleDamgard.cpp`, `src/Hashes/Alg.cpp`, `src/Hashes/Hashes.cpp` and `src/Hashes/Unsafe/*.cpp`
(the classes compiled when the library is built without OpenSSL).

Every class repeats the same `update`/`hexdigest`/`calc` skeleton with other constants; the model has the
skeleton once (`HashAlg`) and each class as an instance.  The context words are `BitVec 32` / `BitVec 64`
(`uint32_t` / `uint64_t`, wrap-around addition).  The destructors that zero the context
(for instance SHA1.h:47-49) are not modelled.
-/
namespace OpenPGP

/-- `ROR` (cryptomath.h:101-105).  `(x & ((1ULL << n) - 1)) << (bits - n)` is computed in 64 bits and the
result is truncated to `T`.  Shifts by 64 or more (undefined in C++) do not occur in the hash functions. -/
def ror {w : Nat} (x : BitVec w) (n bits : Nat) : BitVec w :=
  ((x.setWidth 64 >>> n) ||| ((x.setWidth 64 &&& ((1#64 <<< n) - 1#64)) <<< (bits - n))).setWidth w

/-- `ROL` (cryptomath.h:109-113). -/
def rol {w : Nat} (x : BitVec w) (n bits : Nat) : BitVec w := ror x (bits - n) bits

/-- `toint(data.substr(pos, n), 256)` stored in a `w`-bit word (MD5.cpp:19, SHA1.cpp:11, SHA512.cpp:38). -/
def wordAt (w : Nat) (data : Bytes) (pos n : Nat) : BitVec w :=
  BitVec.ofNat w (toint256 ((data.drop pos).take n))

/-- What distinguishes one hash class from another. -/
structure HashAlg (S : Type) where
  /-- block size in octets (`data.size() >> 6` or `>> 7`) -/
  bs : Nat
  /-- `55` or `111` in `hexdigest` -/
  limit : Nat
  /-- octets of the length field (`makehex(…, 16)` or `makehex(…, 32)`) -/
  lenSize : Nat
  /-- `MD5` and `RIPEMD160` pass the data through `to_little_end` -/
  little : Bool
  /-- initial context -/
  init : S
  /-- one round of the loop of `calc` on one block -/
  compress : Bytes → S → S
  /-- the string returned by `hexdigest` -/
  hex : S → Bytes

/-- A hash object: `ctx`, and the members of `MerkleDamgard` (MerkleDamgard.h:38-39). -/
structure HashObj (S : Type) where
  ctx : S
  stack : Bytes
  clen : Nat

/-- `little_end(str, 256)` (includes.cpp:36-46): the octets in reverse order. -/
def littleEnd256 (s : Bytes) : Bytes := s.reverse

/-- `to_little_end` (MD5.cpp:6-12, RIPEMD160.cpp:24-30).  The counter `x` is an `unsigned int`: when
`data.size() >> 2` reaches 2^32 the loop never ends, and `x << 2` wraps modulo 2^32. -/
def toLittleEnd (data : Bytes) : Out Bytes :=
  if 2 ^ 32 ≤ data.length / 4 then .diverge
  else .ok ((List.range (data.length / 4)).flatMap fun x => littleEnd256 ((data.drop (x * 4 % 2 ^ 32)).take 4))

/-- `calc` (MD5.cpp:14-50, SHA1.cpp:6-47, RIPEMD160.cpp:32-56, SHA256.cpp:33-57, SHA512.cpp:33-57).  The block
counter is an `unsigned int`: when the number of blocks reaches 2^32 the loop never ends, and `n << 6`
(`n << 7`) wraps modulo 2^32. -/
def HashAlg.calc {S : Type} (alg : HashAlg S) (data : Bytes) (st : S) : Out S :=
  if 2 ^ 32 ≤ data.length / alg.bs then .diverge
  else .ok ((List.range (data.length / alg.bs)).foldl
    (fun s n => alg.compress ((data.drop (n * alg.bs % 2 ^ 32)).take alg.bs) s) st)

/-- The argument handed to `calc`: `to_little_end(data)` for MD5 and RIPEMD160 (MD5.cpp:71, RIPEMD160.cpp:76),
the data itself for the others (SHA1.cpp:68, SHA256.cpp:80, SHA512.cpp:80). -/
def HashAlg.convert {S : Type} (alg : HashAlg S) (data : Bytes) : Out Bytes :=
  if alg.little then toLittleEnd data else .ok data

/-- The default constructors (MerkleDamgard.cpp:6-10, MD5.cpp:53-56, SHA1.cpp:49-52, RIPEMD160.cpp:58-61,
SHA256.cpp:59-64, SHA224.cpp:17-21, SHA512.cpp:59-64, SHA384.cpp:17-21). -/
def HashAlg.fresh {S : Type} (alg : HashAlg S) : HashObj S := ⟨alg.init, [], 0⟩

/-- `update` (MD5.cpp:63-72, SHA1.cpp:60-69, RIPEMD160.cpp:69-78, SHA256.cpp:72-81, SHA512.cpp:72-81). -/
def HashAlg.update {S : Type} (alg : HashAlg S) (o : HashObj S) (str : Bytes) : Out (HashObj S) := do
  let data := o.stack ++ str
  let size := data.length / alg.bs * alg.bs
  let rem := data.length - size
  let stack := if rem = 0 then [] else (data.drop size).take rem
  let words ← alg.convert (data.take size)
  let ctx ← alg.calc words o.ctx
  pure ⟨ctx, stack, (o.clen + size) % 2 ^ 64⟩

/-- The last block or blocks built by `hexdigest` (MD5.cpp:77-81, SHA1.cpp:73-74, RIPEMD160.cpp:82-86,
SHA256.cpp:85-86, SHA512.cpp:85-86).  `((size & 63) > 55 ? 119 : 55) - (size & 63)` is the number of zero
octets; `(clen + size) << 3` is taken modulo 2^64; MD5 and RIPEMD160 swap the halves of the length. -/
def HashAlg.lastBlocks {S : Type} (alg : HashAlg S) (o : HashObj S) : Out Bytes := do
  let size := o.stack.length % alg.bs
  let zeros := (if alg.limit < size then alg.bs + alg.limit else alg.limit) - size
  let temp ← unhexlify (makehex ((o.clen + o.stack.length) * 8 % 2 ^ 64) (2 * alg.lenSize) false)
  let last := o.stack ++ [0x80] ++ List.replicate zeros 0
  if alg.little then do
    let last ← toLittleEnd last
    pure (last ++ ((temp.drop 4).take 4 ++ temp.take 4))
  else pure (last ++ temp)

/-- `hexdigest` (MD5.cpp:74-83, SHA1.cpp:71-77, RIPEMD160.cpp:80-89, SHA256.cpp:83-89, SHA512.cpp:83-89,
SHA224.cpp:29-31, SHA384.cpp:29-31).  It is not a `const` member, so the result includes the object after the
call: `calc` works on the copy `tmp` of the context. -/
def HashAlg.hexdigest {S : Type} (alg : HashAlg S) (o : HashObj S) : Out (HashObj S × Bytes) := do
  let last ← alg.lastBlocks o
  let tmp ← alg.calc last o.ctx
  pure (o, alg.hex tmp)

/-- `Alg::digest` (Alg.cpp:10-12). -/
def HashAlg.digest {S : Type} (alg : HashAlg S) (o : HashObj S) : Out (HashObj S × Bytes) := do
  let (o', h) ← alg.hexdigest o
  let d ← unhexlify h
  pure (o', d)

/-- `get_instance(alg, data)` (Hashes.cpp:14-44) through the constructors taking a string (for instance
SHA1.cpp:54-58), and `use` (Hashes.cpp:10-12). -/
def HashAlg.use {S : Type} (alg : HashAlg S) (data : Bytes) : Out Bytes := do
  let o ← alg.update alg.fresh data
  let (_, d) ← alg.digest o
  pure d

/-- One call on a hash object. -/
inductive HashCall where
  | update (s : Bytes)
  | digest
  deriving DecidableEq

/-- A history of calls on one object; the result is the list of the digests returned, in order. -/
def HashAlg.run {S : Type} (alg : HashAlg S) : List HashCall → HashObj S → Out (List Bytes)
  | [], _ => .ok []
  | .update s :: cs, o => do
    let o ← alg.update o s
    alg.run cs o
  | .digest :: cs, o => do
    let (o, d) ← alg.digest o
    let ds ← alg.run cs o
    pure (d :: ds)

/-! ## Contexts -/

/-- `MD5::context` (MD5.h:39-51). -/
structure Words4 where
  (h0 h1 h2 h3 : BitVec 32)
  deriving DecidableEq

/-- `SHA1::context`, `RIPEMD160::context` (SHA1.h:37-50, RIPEMD160.h:41-53). -/
structure Words5 where
  (h0 h1 h2 h3 h4 : BitVec 32)
  deriving DecidableEq

/-- `SHA256::context`, `SHA512::context` (SHA256.h:40-46, SHA512.h:40-45). -/
structure Words8 (w : Nat) where
  (h0 h1 h2 h3 h4 h5 h6 h7 : BitVec w)
  deriving DecidableEq

/-- `makehex(h, 8)` or `makehex(h, 16)`. -/
def wordHex {w : Nat} (h : BitVec w) : Bytes := makehex h.toNat (w / 4) false

/-- `little_end(str, 16)` (includes.cpp:36-46) on an eight character string: the pairs of characters in
reverse order. -/
def littleEndHex (s : Bytes) : Bytes :=
  (s.drop 6).take 2 ++ (s.drop 4).take 2 ++ (s.drop 2).take 2 ++ s.take 2

/-! ## MD5 -/

/-- `MD5_K` (MD5_Const.h:36-43). -/
def md5K : List (BitVec 32) :=
  [0xd76aa478, 0xe8c7b756, 0x242070db, 0xc1bdceee, 0xf57c0faf, 0x4787c62a, 0xa8304613, 0xfd469501,
   0x698098d8, 0x8b44f7af, 0xffff5bb1, 0x895cd7be, 0x6b901122, 0xfd987193, 0xa679438e, 0x49b40821,
   0xf61e2562, 0xc040b340, 0x265e5a51, 0xe9b6c7aa, 0xd62f105d, 0x02441453, 0xd8a1e681, 0xe7d3fbc8,
   0x21e1cde6, 0xc33707d6, 0xf4d50d87, 0x455a14ed, 0xa9e3e905, 0xfcefa3f8, 0x676f02d9, 0x8d2a4c8a,
   0xfffa3942, 0x8771f681, 0x6d9d6122, 0xfde5380c, 0xa4beea44, 0x4bdecfa9, 0xf6bb4b60, 0xbebfbc70,
   0x289b7ec6, 0xeaa127fa, 0xd4ef3085, 0x04881d05, 0xd9d4d039, 0xe6db99e5, 0x1fa27cf8, 0xc4ac5665,
   0xf4292244, 0x432aff97, 0xab9423a7, 0xfc93a039, 0x655b59c3, 0x8f0ccc92, 0xffeff47d, 0x85845dd1,
   0x6fa87e4f, 0xfe2ce6e0, 0xa3014314, 0x4e0811a1, 0xf7537e82, 0xbd3af235, 0x2ad7d2bb, 0xeb86d391]

/-- `MD5_R` (MD5_Const.h:31-34). -/
def md5R : List Nat :=
  [7, 12, 17, 22, 7, 12, 17, 22, 7, 12, 17, 22, 7, 12, 17, 22,
   5, 9, 14, 20, 5, 9, 14, 20, 5, 9, 14, 20, 5, 9, 14, 20,
   4, 11, 16, 23, 4, 11, 16, 23, 4, 11, 16, 23, 4, 11, 16, 23,
   6, 10, 15, 21, 6, 10, 15, 21, 6, 10, 15, 21, 6, 10, 15, 21]

/-- The loop body MD5.cpp:21-45. -/
def md5Round (w : List (BitVec 32)) (s : Words4) (x : Nat) : Words4 :=
  let (a, b, c, d) := (s.h0, s.h1, s.h2, s.h3)
  let f := if x < 16 then (b &&& c) ||| (~~~b &&& d)
    else if x < 32 then (d &&& b) ||| (~~~d &&& c)
    else if x < 48 then b ^^^ c ^^^ d
    else c ^^^ (b ||| ~~~d)
  let g := if x < 16 then x else if x < 32 then (5 * x + 1) % 16 else if x < 48 then (3 * x + 5) % 16
    else (7 * x) % 16
  ⟨d, b + rol (a + f + md5K.getD x 0 + w.getD g 0) (md5R.getD x 0) 32, b, c⟩

/-- The block loop of `MD5::calc` (MD5.cpp:14-50). -/
def md5Compress (block : Bytes) (st : Words4) : Words4 :=
  let w := (List.range 16).map fun x => wordAt 32 block (x * 4) 4
  let r := (List.range 64).foldl (md5Round w) st
  ⟨st.h0 + r.h0, st.h1 + r.h1, st.h2 + r.h2, st.h3 + r.h3⟩

/-- `MD5` (MD5.cpp). -/
def md5 : HashAlg Words4 where
  bs := 64
  limit := 55
  lenSize := 8
  little := true
  init := ⟨0x67452301, 0xefcdab89, 0x98badcfe, 0x10325476⟩
  compress := md5Compress
  hex := fun s => littleEndHex (wordHex s.h0) ++ littleEndHex (wordHex s.h1) ++ littleEndHex (wordHex s.h2) ++
    littleEndHex (wordHex s.h3)

/-! ## SHA-1 -/

/-- Filling `skey` from index 16 on: `n` more words, each computed from the list so far. -/
def expandWords {w : Nat} (f : List (BitVec w) → BitVec w) : Nat → List (BitVec w) → List (BitVec w)
  | 0, l => l
  | n + 1, l => expandWords f n (l ++ [f l])

/-- `skey[x - i]` when `x` words have been filled. -/
def back {w : Nat} (l : List (BitVec w)) (i : Nat) : BitVec w := l.getD (l.length - i) 0

/-- SHA1.cpp:14. -/
def sha1Expand (l : List (BitVec 32)) : BitVec 32 :=
  rol (back l 3 ^^^ back l 8 ^^^ back l 14 ^^^ back l 16) 1 32

/-- SHA1.cpp:18-40. -/
def sha1Round (skey : List (BitVec 32)) (s : Words5) (j : Nat) : Words5 :=
  let (a, b, c, d, e) := (s.h0, s.h1, s.h2, s.h3, s.h4)
  let f := if j ≤ 19 then (b &&& c) ||| (~~~b &&& d)
    else if j ≤ 39 then b ^^^ c ^^^ d
    else if j ≤ 59 then (b &&& c) ||| (b &&& d) ||| (c &&& d)
    else b ^^^ c ^^^ d
  let k : BitVec 32 := if j ≤ 19 then 0x5A827999 else if j ≤ 39 then 0x6ED9EBA1
    else if j ≤ 59 then 0x8F1BBCDC else 0xCA62C1D6
  ⟨rol a 5 32 + f + e + k + skey.getD j 0, a, rol b 30 32, c, d⟩

/-- The block loop of `SHA1::calc` (SHA1.cpp:7-46). -/
def sha1Compress (block : Bytes) (st : Words5) : Words5 :=
  let skey := expandWords sha1Expand 64 ((List.range 16).map fun x => wordAt 32 block (x * 4) 4)
  let r := (List.range 80).foldl (sha1Round skey) st
  ⟨st.h0 + r.h0, st.h1 + r.h1, st.h2 + r.h2, st.h3 + r.h3, st.h4 + r.h4⟩

/-- `SHA1` (SHA1.cpp). -/
def sha1 : HashAlg Words5 where
  bs := 64
  limit := 55
  lenSize := 8
  little := false
  init := ⟨0x67452301, 0xEFCDAB89, 0x98BADCFE, 0x10325476, 0xC3D2E1F0⟩
  compress := sha1Compress
  hex := fun s => wordHex s.h0 ++ wordHex s.h1 ++ wordHex s.h2 ++ wordHex s.h3 ++ wordHex s.h4

/-! ## RIPEMD-160 -/

/-- `RIPEMD_s` (RIPEMD_Const.h:38-42). -/
def ripemds : List Nat :=
  [11, 14, 15, 12, 5, 8, 7, 9, 11, 13, 14, 15, 6, 7, 9, 8,
   7, 6, 8, 13, 11, 9, 7, 15, 7, 12, 15, 9, 11, 7, 13, 12,
   11, 13, 6, 7, 14, 9, 13, 15, 14, 8, 13, 6, 5, 12, 7, 5,
   11, 12, 14, 15, 14, 15, 9, 8, 9, 14, 5, 6, 8, 6, 5, 12,
   9, 15, 5, 11, 6, 8, 13, 12, 5, 12, 13, 14, 11, 8, 5, 6]

/-- `RIPEMD_S` (RIPEMD_Const.h:44-48). -/
def ripemdS : List Nat :=
  [8, 9, 9, 11, 13, 15, 15, 5, 7, 7, 8, 11, 14, 14, 12, 6,
   9, 13, 15, 7, 12, 8, 9, 11, 7, 7, 12, 7, 6, 15, 13, 11,
   9, 7, 15, 11, 8, 6, 6, 14, 12, 13, 5, 14, 13, 13, 7, 5,
   15, 5, 8, 11, 14, 14, 6, 14, 6, 9, 12, 9, 12, 5, 15, 8,
   8, 5, 12, 9, 12, 5, 14, 6, 8, 13, 6, 5, 15, 13, 11, 11]

/-- `RIPEMD_r` (RIPEMD_Const.h:50-54). -/
def ripemdr : List Nat :=
  [0, 1, 2, 3, 4, 5, 6, 7, 8, 9, 10, 11, 12, 13, 14, 15,
   7, 4, 13, 1, 10, 6, 15, 3, 12, 0, 9, 5, 2, 14, 11, 8,
   3, 10, 14, 4, 9, 15, 8, 1, 2, 7, 0, 6, 13, 11, 5, 12,
   1, 9, 11, 10, 0, 8, 12, 4, 13, 3, 7, 15, 14, 5, 6, 2,
   4, 0, 5, 9, 7, 12, 2, 10, 14, 1, 3, 8, 11, 6, 15, 13]

/-- `RIPEMD_R` (RIPEMD_Const.h:56-60). -/
def ripemdR : List Nat :=
  [5, 14, 7, 0, 9, 2, 11, 4, 13, 6, 15, 8, 1, 10, 3, 12,
   6, 11, 3, 7, 0, 13, 5, 10, 14, 15, 8, 12, 4, 9, 1, 2,
   15, 5, 1, 3, 7, 14, 6, 9, 11, 8, 12, 2, 10, 0, 4, 13,
   8, 6, 4, 1, 3, 11, 15, 0, 5, 12, 2, 13, 9, 7, 10, 14,
   12, 15, 10, 4, 1, 5, 8, 7, 6, 2, 13, 14, 0, 3, 9, 11]

/-- `RIPEMD160_k` (RIPEMD160_Const.h:31). -/
def ripemdk : List (BitVec 32) := [0, 0x5A827999, 0x6ED9EBA1, 0x8F1BBCDC, 0xA953FD4E]

/-- `RIPEMD160_K` (RIPEMD160_Const.h:32). -/
def ripemdK : List (BitVec 32) := [0x50A28BE6, 0x5C4DD124, 0x6D703EF3, 0x7A6D76E9, 0]

/-- `RIPEMD160::F` (RIPEMD160.cpp:6-22). -/
def ripemdF (x y z : BitVec 32) (round : Nat) : BitVec 32 :=
  if round < 16 then x ^^^ y ^^^ z
  else if round < 32 then (x &&& y) ||| (~~~x &&& z)
  else if round < 48 then (x ||| ~~~y) ^^^ z
  else if round < 64 then (x &&& z) ||| (y &&& ~~~z)
  else x ^^^ (y ||| ~~~z)

/-- One half of the loop body RIPEMD160.cpp:41-44 (`f` is the round number given to `F`, `r`, `k`, `sh` the
three tables of that half). -/
def ripemdHalf (X : List (BitVec 32)) (s : Words5) (f : Nat) (r : Nat) (k : BitVec 32) (sh : Nat) : Words5 :=
  let (a, b, c, d, e) := (s.h0, s.h1, s.h2, s.h3, s.h4)
  let t := rol ((a + ripemdF b c d f + X.getD r 0 + k) &&& 0xffffffff) sh 32 + e
  ⟨e, t, b, rol c 10 32, d⟩

/-- RIPEMD160.cpp:40-46. -/
def ripemdRound (X : List (BitVec 32)) (s : Words5 × Words5) (j : Nat) : Words5 × Words5 :=
  (ripemdHalf X s.1 j (ripemdr.getD j 0) (ripemdk.getD (j / 16) 0) (ripemds.getD j 0),
   ripemdHalf X s.2 (79 - j) (ripemdR.getD j 0) (ripemdK.getD (j / 16) 0) (ripemdS.getD j 0))

/-- The block loop of `RIPEMD160::calc` (RIPEMD160.cpp:32-54). -/
def ripemdCompress (block : Bytes) (st : Words5) : Words5 :=
  let X := (List.range 16).map fun x => wordAt 32 block (x * 4) 4
  let (l, r) := (List.range 80).foldl (ripemdRound X) (st, st)
  ⟨st.h1 + l.h2 + r.h3, st.h2 + l.h3 + r.h4, st.h3 + l.h4 + r.h0, st.h4 + l.h0 + r.h1, st.h0 + l.h1 + r.h2⟩

/-- `RIPEMD160` (RIPEMD160.cpp). -/
def ripemd160 : HashAlg Words5 where
  bs := 64
  limit := 55
  lenSize := 8
  little := true
  init := ⟨0x67452301, 0xEFCDAB89, 0x98BADCFE, 0x10325476, 0xC3D2E1F0⟩
  compress := ripemdCompress
  hex := fun s => littleEndHex (wordHex s.h0) ++ littleEndHex (wordHex s.h1) ++ littleEndHex (wordHex s.h2) ++
    littleEndHex (wordHex s.h3) ++ littleEndHex (wordHex s.h4)

/-! ## SHA-2 -/

/-- `Ch` (SHA2_Functions.cpp:6-8): computed on `uint64_t`, truncated by the caller. -/
def sha2Ch {w : Nat} (m n o : BitVec w) : BitVec w :=
  ((m.setWidth 64 &&& n.setWidth 64) ^^^ (~~~(m.setWidth 64) &&& o.setWidth 64)).setWidth w

/-- `Maj` (SHA2_Functions.cpp:10-12). -/
def sha2Maj {w : Nat} (m n o : BitVec w) : BitVec w :=
  ((m.setWidth 64 &&& n.setWidth 64) ^^^ (m.setWidth 64 &&& o.setWidth 64) ^^^
    (n.setWidth 64 &&& o.setWidth 64)).setWidth w

/-- `SHA256_K` (SHA256_Const.h:31-38). -/
def sha256K : List (BitVec 32) :=
  [0x428a2f98, 0x71374491, 0xb5c0fbcf, 0xe9b5dba5, 0x3956c25b, 0x59f111f1, 0x923f82a4, 0xab1c5ed5,
   0xd807aa98, 0x12835b01, 0x243185be, 0x550c7dc3, 0x72be5d74, 0x80deb1fe, 0x9bdc06a7, 0xc19bf174,
   0xe49b69c1, 0xefbe4786, 0x0fc19dc6, 0x240ca1cc, 0x2de92c6f, 0x4a7484aa, 0x5cb0a9dc, 0x76f988da,
   0x983e5152, 0xa831c66d, 0xb00327c8, 0xbf597fc7, 0xc6e00bf3, 0xd5a79147, 0x06ca6351, 0x14292967,
   0x27b70a85, 0x2e1b2138, 0x4d2c6dfc, 0x53380d13, 0x650a7354, 0x766a0abb, 0x81c2c92e, 0x92722c85,
   0xa2bfe8a1, 0xa81a664b, 0xc24b8b70, 0xc76c51a3, 0xd192e819, 0xd6990624, 0xf40e3585, 0x106aa070,
   0x19a4c116, 0x1e376c08, 0x2748774c, 0x34b0bcb5, 0x391c0cb3, 0x4ed8aa4a, 0x5b9cca4f, 0x682e6ff3,
   0x748f82ee, 0x78a5636f, 0x84c87814, 0x8cc70208, 0x90befffa, 0xa4506ceb, 0xbef9a3f7, 0xc67178f2]

/-- `SHA512_K` (SHA512_Const.h:31-50). -/
def sha512K : List (BitVec 64) :=
  [0x428a2f98d728ae22, 0x7137449123ef65cd, 0xb5c0fbcfec4d3b2f, 0xe9b5dba58189dbbc,
   0x3956c25bf348b538, 0x59f111f1b605d019, 0x923f82a4af194f9b, 0xab1c5ed5da6d8118,
   0xd807aa98a3030242, 0x12835b0145706fbe, 0x243185be4ee4b28c, 0x550c7dc3d5ffb4e2,
   0x72be5d74f27b896f, 0x80deb1fe3b1696b1, 0x9bdc06a725c71235, 0xc19bf174cf692694,
   0xe49b69c19ef14ad2, 0xefbe4786384f25e3, 0x0fc19dc68b8cd5b5, 0x240ca1cc77ac9c65,
   0x2de92c6f592b0275, 0x4a7484aa6ea6e483, 0x5cb0a9dcbd41fbd4, 0x76f988da831153b5,
   0x983e5152ee66dfab, 0xa831c66d2db43210, 0xb00327c898fb213f, 0xbf597fc7beef0ee4,
   0xc6e00bf33da88fc2, 0xd5a79147930aa725, 0x06ca6351e003826f, 0x142929670a0e6e70,
   0x27b70a8546d22ffc, 0x2e1b21385c26c926, 0x4d2c6dfc5ac42aed, 0x53380d139d95b3df,
   0x650a73548baf63de, 0x766a0abb3c77b2a8, 0x81c2c92e47edaee6, 0x92722c851482353b,
   0xa2bfe8a14cf10364, 0xa81a664bbc423001, 0xc24b8b70d0f89791, 0xc76c51a30654be30,
   0xd192e819d6ef5218, 0xd69906245565a910, 0xf40e35855771202a, 0x106aa07032bbd1b8,
   0x19a4c116b8d2d0c8, 0x1e376c085141ab53, 0x2748774cdf8eeb99, 0x34b0bcb5e19b48a8,
   0x391c0cb3c5c95a63, 0x4ed8aa4ae3418acb, 0x5b9cca4f7763e373, 0x682e6ff3d6b2b8a3,
   0x748f82ee5defb2fc, 0x78a5636f43172f60, 0x84c87814a1f0ab72, 0x8cc702081a6439ec,
   0x90befffa23631e28, 0xa4506cebde82bde9, 0xbef9a3f7b2c67915, 0xc67178f2e372532b,
   0xca273eceea26619c, 0xd186b8c721c0c207, 0xeada7dd6cde0eb1e, 0xf57d4f7fee6ed178,
   0x06f067aa72176fba, 0x0a637dc5a2c898a6, 0x113f9804bef90dae, 0x1b710b35131c471b,
   0x28db77f523047d84, 0x32caab7b40c72493, 0x3c9ebe0a15c9bebc, 0x431d67c49c100d4c,
   0x4cc5d4becb3e42b6, 0x597f299cfc657e2a, 0x5fcb6fab3ad6faec, 0x6c44198c4a475817]

/-- `SHA256::S0` (SHA256.cpp:6-8). -/
def sha256S0 (v : BitVec 32) : BitVec 32 := ror v 2 32 ^^^ ror v 13 32 ^^^ ror v 22 32
/-- `SHA256::S1` (SHA256.cpp:10-12). -/
def sha256S1 (v : BitVec 32) : BitVec 32 := ror v 6 32 ^^^ ror v 11 32 ^^^ ror v 25 32
/-- `SHA256::s0` (SHA256.cpp:14-16). -/
def sha256s0 (v : BitVec 32) : BitVec 32 := ror v 7 32 ^^^ ror v 18 32 ^^^ (v >>> 3)
/-- `SHA256::s1` (SHA256.cpp:18-20). -/
def sha256s1 (v : BitVec 32) : BitVec 32 := ror v 17 32 ^^^ ror v 19 32 ^^^ (v >>> 10)
/-- `SHA512::S0` (SHA512.cpp:6-8). -/
def sha512S0 (v : BitVec 64) : BitVec 64 := ror v 28 64 ^^^ ror v 34 64 ^^^ ror v 39 64
/-- `SHA512::S1` (SHA512.cpp:10-12). -/
def sha512S1 (v : BitVec 64) : BitVec 64 := ror v 14 64 ^^^ ror v 18 64 ^^^ ror v 41 64
/-- `SHA512::s0` (SHA512.cpp:14-16). -/
def sha512s0 (v : BitVec 64) : BitVec 64 := ror v 1 64 ^^^ ror v 8 64 ^^^ (v >>> 7)
/-- `SHA512::s1` (SHA512.cpp:18-20). -/
def sha512s1 (v : BitVec 64) : BitVec 64 := ror v 19 64 ^^^ ror v 61 64 ^^^ (v >>> 6)

/-- SHA256.cpp:41, SHA512.cpp:41. -/
def sha2Expand {w : Nat} (s0 s1 : BitVec w → BitVec w) (l : List (BitVec w)) : BitVec w :=
  s1 (back l 2) + back l 7 + s0 (back l 15) + back l 16

/-- SHA256.cpp:44-55, SHA512.cpp:44-55. -/
def sha2Round {w : Nat} (S0 S1 : BitVec w → BitVec w) (K skey : List (BitVec w)) (s : Words8 w) (x : Nat) :
    Words8 w :=
  let (a, b, c, d, e, f, g, h) := (s.h0, s.h1, s.h2, s.h3, s.h4, s.h5, s.h6, s.h7)
  let t1 := h + S1 e + sha2Ch e f g + K.getD x 0 + skey.getD x 0
  let t2 := S0 a + sha2Maj a b c
  ⟨t1 + t2, a, b, c, d + t1, e, f, g⟩

/-- `state.h0 += a; …` (SHA256.cpp:56, SHA512.cpp:56). -/
def Words8.add {w : Nat} (s r : Words8 w) : Words8 w :=
  ⟨s.h0 + r.h0, s.h1 + r.h1, s.h2 + r.h2, s.h3 + r.h3, s.h4 + r.h4, s.h5 + r.h5, s.h6 + r.h6, s.h7 + r.h7⟩

/-- The block loop of `SHA256::calc` (SHA256.cpp:34-57). -/
def sha256Compress (block : Bytes) (st : Words8 32) : Words8 32 :=
  let skey := expandWords (sha2Expand sha256s0 sha256s1) 48
    ((List.range 16).map fun x => wordAt 32 block (x * 4) 4)
  st.add ((List.range 64).foldl (sha2Round sha256S0 sha256S1 sha256K skey) st)

/-- The block loop of `SHA512::calc` (SHA512.cpp:34-57). -/
def sha512Compress (block : Bytes) (st : Words8 64) : Words8 64 :=
  let skey := expandWords (sha2Expand sha512s0 sha512s1) 64
    ((List.range 16).map fun x => wordAt 64 block (x * 8) 8)
  st.add ((List.range 80).foldl (sha2Round sha512S0 sha512S1 sha512K skey) st)

/-- The eight `makehex` calls of SHA256.cpp:88, SHA512.cpp:88. -/
def Words8.hex {w : Nat} (s : Words8 w) : Bytes :=
  wordHex s.h0 ++ wordHex s.h1 ++ wordHex s.h2 ++ wordHex s.h3 ++ wordHex s.h4 ++ wordHex s.h5 ++ wordHex s.h6 ++
    wordHex s.h7

/-- `SHA256` (SHA256.cpp). -/
def sha256 : HashAlg (Words8 32) where
  bs := 64
  limit := 55
  lenSize := 8
  little := false
  init := ⟨0x6a09e667, 0xbb67ae85, 0x3c6ef372, 0xa54ff53a, 0x510e527f, 0x9b05688c, 0x1f83d9ab, 0x5be0cd19⟩
  compress := sha256Compress
  hex := Words8.hex

/-- `SHA224` (SHA224.cpp): SHA256 with another initial context, the first 56 characters of the result. -/
def sha224 : HashAlg (Words8 32) where
  bs := 64
  limit := 55
  lenSize := 8
  little := false
  init := ⟨0xc1059ed8, 0x367cd507, 0x3070dd17, 0xf70e5939, 0xffc00b31, 0x68581511, 0x64f98fa7, 0xbefa4fa4⟩
  compress := sha256Compress
  hex := fun s => s.hex.take 56

/-- `SHA512` (SHA512.cpp). -/
def sha512 : HashAlg (Words8 64) where
  bs := 128
  limit := 111
  lenSize := 16
  little := false
  init := ⟨0x6a09e667f3bcc908, 0xbb67ae8584caa73b, 0x3c6ef372fe94f82b, 0xa54ff53a5f1d36f1,
    0x510e527fade682d1, 0x9b05688c2b3e6c1f, 0x1f83d9abfb41bd6b, 0x5be0cd19137e2179⟩
  compress := sha512Compress
  hex := Words8.hex

/-- `SHA384` (SHA384.cpp): SHA512 with another initial context, the first 96 characters of the result. -/
def sha384 : HashAlg (Words8 64) where
  bs := 128
  limit := 111
  lenSize := 16
  little := false
  init := ⟨0xcbbb9d5dc1059ed8, 0x629a292a367cd507, 0x9159015a3070dd17, 0x152fecd8f70e5939,
    0x67332667ffc00b31, 0x8eb44a8768581511, 0xdb0c2e0d64f98fa7, 0x47b5481dbefa4fa4⟩
  compress := sha512Compress
  hex := fun s => s.hex.take 96

/-- `get_instance(alg, data)` (Hashes.cpp:14-44) followed by a history of calls on the object; unknown algorithms
throw. -/
def builtinRun (alg : UInt8) (cs : List HashCall) : Out (List Bytes) :=
  if alg = 1 then md5.run cs md5.fresh
  else if alg = 2 then sha1.run cs sha1.fresh
  else if alg = 3 then ripemd160.run cs ripemd160.fresh
  else if alg = 8 then sha256.run cs sha256.fresh
  else if alg = 9 then sha384.run cs sha384.fresh
  else if alg = 10 then sha512.run cs sha512.fresh
  else if alg = 11 then sha224.run cs sha224.fresh
  else .throw

/-- `use(alg, data)` (Hashes.cpp:10-42): unknown algorithms throw. -/
def builtinHash (alg : UInt8) (data : Bytes) : Out Bytes :=
  if alg = 1 then md5.use data
  else if alg = 2 then sha1.use data
  else if alg = 3 then ripemd160.use data
  else if alg = 8 then sha256.use data
  else if alg = 9 then sha384.use data
  else if alg = 10 then sha512.use data
  else if alg = 11 then sha224.use data
  else .throw

end OpenPGP
