import Verif.Model.CipherBase

/-!
# Model of `src/Encryptions/AES.cpp` (the active version, lines 1-292; the rest of the file is commented out)

`data` and each element of `keys` are vectors of four words and are modelled by `Quad`.
-/
namespace OpenPGP

/-- `AES_Subbytes` (AES_Const.h:28-43). -/
def aesSubT : Nat :=
  0x637c777bf26b6fc53001672bfed7ab76ca82c97dfa5947f0add4a2af9ca472c0b7fd9326363ff7cc34a5e5f171d8311504c723c31896059a071280e2eb27b27509832c1a1b6e5aa0523bd6b329e32f8453d100ed20fcb15b6acbbe394a4c58cfd0efaafb434d338545f9027f503c9fa851a3408f929d38f5bcb6da2110fff3d2cd0c13ec5f974417c4a77e3d645d197360814fdc222a908846eeb814de5e0bdbe0323a0a4906245cc2d3ac629195e479e7c8376d8dd54ea96c56f4ea657aae08ba78252e1ca6b4c6e8dd741f4bbd8b8a703eb5664803f60e613557b986c11d9ee1f8981169d98e949b1e87e9ce5528df8ca1890dbfe6426841992d0fb054bb16

/-- `AES_Inv_Subbytes` (AES_Const.h:45-60). -/
def aesInvT : Nat :=
  0x52096ad53036a538bf40a39e81f3d7fb7ce339829b2fff87348e4344c4dee9cb547b9432a6c2233dee4c950b42fac34e082ea16628d924b2765ba2496d8bd12572f8f66486689816d4a45ccc5d65b6926c704850fdedb9da5e154657a78d9d8490d8ab008cbcd30af7e45805b8b34506d02c1e8fca3f0f02c1afbd0301138a6b3a9111414f67dcea97f2cfcef0b4e67396ac7422e7ad3585e2f937e81c75df6e47f11a711d29c5896fb7620eaa18be1bfc563e4bc6d279209adbc0fe78cd5af41fdda8338807c731b11210592780ec5f60517fa919b54a0d2de57a9f93c99cefa0e03b4dae2af5b0c8ebbb3c83539961172b047eba77d626e169146355210c7d

/-- `AES_Subbytes[x]` for `x < 256`. -/
def aesSub (x : BitVec 8) : BitVec 8 := tab 8 aesSubT 256 x.toNat

/-- `AES_Inv_Subbytes[x]` for `x < 256`. -/
def aesInv (x : BitVec 8) : BitVec 8 := tab 8 aesInvT 256 x.toNat

/-- `(w >> (8 * k)) & 255`. -/
def octetOf (w : BitVec 32) (k : Nat) : BitVec 8 := (w >>> (8 * k)).setWidth 8

/-- `(a << 24) + (b << 16) + (c << 8) + d` for octets. -/
def packWord (a b c d : BitVec 8) : BitVec 32 :=
  (a.setWidth 32 <<< 24) + (b.setWidth 32 <<< 16) + (c.setWidth 32 <<< 8) + d.setWidth 32

/-- The double loop `temp[x] += ((data[y] >> ((3 - x) << 3)) & 255) << ((3 - y) << 3)` (AES.cpp:5-10, 17-23):
transposition of the square of octets. -/
def aesTranspose (q : Quad) : Quad :=
  ⟨packWord (octetOf q.a 3) (octetOf q.b 3) (octetOf q.c 3) (octetOf q.d 3),
   packWord (octetOf q.a 2) (octetOf q.b 2) (octetOf q.c 2) (octetOf q.d 2),
   packWord (octetOf q.a 1) (octetOf q.b 1) (octetOf q.c 1) (octetOf q.d 1),
   packWord (octetOf q.a 0) (octetOf q.b 0) (octetOf q.c 0) (octetOf q.d 0)⟩

/-- `AES::shiftrow` (AES.cpp:3-25). -/
def aesShiftRow (q : Quad) : Quad :=
  let t := aesTranspose q
  aesTranspose ⟨rol t.a 0 32, rol t.b 8 32, rol t.c 16 32, rol t.d 24 32⟩

/-- `AES::invshiftrow` (AES.cpp:27-49). -/
def aesInvShiftRow (q : Quad) : Quad :=
  let t := aesTranspose q
  aesTranspose ⟨ror t.a 0 32, ror t.b 8 32, ror t.c 16 32, ror t.d 24 32⟩

/-- The loop of `AES::GF` (AES.cpp:80-91); `n` is `8 - i`. -/
def aesGFLoop : (n : Nat) → (a b p : BitVec 8) → BitVec 8
  | 0, _, _, p => p
  | n + 1, a, b, p =>
    if a ≠ 0 ∧ b ≠ 0 then
      let p := if b &&& 1 ≠ 0 then p ^^^ a else p
      let hi := a &&& 0x80
      let a := a <<< 1
      let a := if hi ≠ 0 then a ^^^ 0x1b else a
      aesGFLoop n a (b >>> 1) p
    else p

/-- `AES::GF` (AES.cpp:74-93). -/
def aesGF (a b : BitVec 8) : BitVec 8 := aesGFLoop 8 a b 0

/-- One pass of the loop of `AES::mixcolumns` (AES.cpp:98-101). -/
def aesMixWord (w : BitVec 32) : BitVec 32 :=
  let b3 := octetOf w 3
  let b2 := octetOf w 2
  let b1 := octetOf w 1
  let b0 := octetOf w 0
  packWord (aesGF 2 b3 ^^^ aesGF 3 b2 ^^^ b1 ^^^ b0)
           (aesGF 2 b2 ^^^ aesGF 3 b1 ^^^ b0 ^^^ b3)
           (aesGF 2 b1 ^^^ aesGF 3 b0 ^^^ b3 ^^^ b2)
           (aesGF 2 b0 ^^^ aesGF 3 b3 ^^^ b2 ^^^ b1)

/-- `AES::mixcolumns` (AES.cpp:95-104). -/
def aesMixColumns (q : Quad) : Quad := q.map aesMixWord

/-- One pass of the loop of `AES::invmixcolumns` (AES.cpp:109-112). -/
def aesInvMixWord (w : BitVec 32) : BitVec 32 :=
  let b3 := octetOf w 3
  let b2 := octetOf w 2
  let b1 := octetOf w 1
  let b0 := octetOf w 0
  packWord (aesGF 14 b3 ^^^ aesGF 9 b0 ^^^ aesGF 13 b1 ^^^ aesGF 11 b2)
           (aesGF 14 b2 ^^^ aesGF 9 b3 ^^^ aesGF 13 b0 ^^^ aesGF 11 b1)
           (aesGF 14 b1 ^^^ aesGF 9 b2 ^^^ aesGF 13 b3 ^^^ aesGF 11 b0)
           (aesGF 14 b0 ^^^ aesGF 9 b1 ^^^ aesGF 13 b2 ^^^ aesGF 11 b3)

/-- `AES::invmixcolumns` (AES.cpp:106-115). -/
def aesInvMixColumns (q : Quad) : Quad := q.map aesInvMixWord

/-- `(AES_Subbytes[w >> 24] << 24) + …` (AES.cpp:219-221, 228-230), and the loops with `s` in `setkey`
(AES.cpp:164-166, 178-180), which add the same octets in the other order. -/
def aesSubWord (w : BitVec 32) : BitVec 32 :=
  packWord (aesSub (octetOf w 3)) (aesSub (octetOf w 2)) (aesSub (octetOf w 1)) (aesSub (octetOf w 0))

/-- `(AES_Inv_Subbytes[w >> 24] << 24) + …` (AES.cpp:267-269, 278-280). -/
def aesInvSubWord (w : BitVec 32) : BitVec 32 :=
  packWord (aesInv (octetOf w 3)) (aesInv (octetOf w 2)) (aesInv (octetOf w 1)) (aesInv (octetOf w 0))

/-- The reading loops of `encrypt` and `decrypt` (AES.cpp:206-213, 252-259). -/
def quadIn (d : Bytes) : Quad := ⟨wordAt 32 d 0 4, wordAt 32 d 4 4, wordAt 32 d 8 4, wordAt 32 d 12 4⟩

/-- `AES::OUT` (AES.cpp:117-123). -/
def quadOut (q : Quad) : Out Bytes :=
  unhexlify (makehex q.a.toNat 8 false ++ makehex q.b.toNat 8 false ++ makehex q.c.toNat 8 false ++
    makehex q.d.toNat 8 false)

/-- `key[i]`; the indices used by `setkey` are within the vector. -/
def wordIx (key : List (BitVec 32)) (i : Nat) : BitVec 32 := key.getD i 0

/-- `key.push_back(key[key.size() - 1] ^ key[key.size() - n])` (AES.cpp:173, 185). -/
def aesPush (n : Nat) (key : List (BitVec 32)) : List (BitVec 32) :=
  key ++ [wordIx key (key.length - 1) ^^^ wordIx key (key.length - n)]

/-- One pass of the `while` loop of `AES::setkey` (AES.cpp:160-186). -/
def aesExpandStep (n i : Nat) (key : List (BitVec 32)) : List (BitVec 32) :=
  let t := rol (wordIx key (key.length - 1)) 8 32
  let s := aesSubWord t
  let t := s ^^^ wordIx key (key.length - n)
  let t := t ^^^ (BitVec.ofNat 32 (2 ^ (i - 1) % 229) <<< 24)
  let key := key ++ [t]
  let key := aesPush n (aesPush n (aesPush n key))
  let key := if n = 8 then
      key ++ [aesSubWord (wordIx key (key.length - 1)) ^^^ wordIx key (key.length - n)]
    else key
  if n = 6 then aesPush n (aesPush n key)
  else if n = 8 then aesPush n (aesPush n (aesPush n key))
  else key

/-- The `while` loop of `AES::setkey` (AES.cpp:159-187). -/
def aesExpand (n b : Nat) : (fuel i : Nat) → List (BitVec 32) → Out (List (BitVec 32))
  | 0, _, _ => .diverge
  | fuel + 1, i, key =>
    if 4 * key.length < b then aesExpand n b fuel (i + 1) (aesExpandStep n i key) else .ok key

/-- An `AES` object (AES.h:38-39; `b` and `columns` are only used by `setkey`). -/
structure AesObj where
  keyset : Bool
  rounds : Nat
  keys : List Quad
  deriving DecidableEq

/-- `AES::setkey` (AES.cpp:137-195).  `uint8_t n = KEY.size()` keeps the size modulo 256. -/
def aesSetkey (o : AesObj) (KEY : Bytes) : Out AesObj :=
  if o.keyset then .throw else
  let n := KEY.length % 256
  if n ≠ 16 ∧ n ≠ 24 ∧ n ≠ 32 then .throw else do
  let rounds := n / 4 + 6
  let columns := rounds - 6
  let b := (rounds + 1) * 16
  let n := n / 4
  let key := (List.range columns).map fun x => wordAt 32 KEY (4 * x) 4
  let key ← aesExpand n b 16 1 key
  let keys := (List.range (b / 16)).map fun j =>
    (⟨wordIx key (4 * j), wordIx key (4 * j + 1), wordIx key (4 * j + 2), wordIx key (4 * j + 3)⟩ : Quad)
  .ok ⟨true, rounds, o.keys ++ keys⟩

/-- `keys[r]`; the indices used are at most `rounds`. -/
def quadIx (keys : List Quad) (r : Nat) : Quad := keys.getD r ⟨0, 0, 0, 0⟩

/-- One pass of the loop of `AES::encrypt` (AES.cpp:218-226). -/
def aesEncRound (keys : List Quad) (data : Quad) (r : Nat) : Quad :=
  (aesMixColumns (aesShiftRow (data.map aesSubWord))).xor (quadIx keys r)

/-- The block function of `AES::encrypt` (AES.cpp:206-239). -/
def aesEncBlock (keys : List Quad) (rounds : Nat) (data : Quad) : Quad :=
  let data := data.xor (quadIx keys 0)
  let data := (List.range' 1 (rounds - 1)).foldl (aesEncRound keys) data
  (aesShiftRow (data.map aesSubWord)).xor (quadIx keys rounds)

/-- `AES::encrypt` (AES.cpp:197-240). -/
def aesEncrypt (o : AesObj) (DATA : Bytes) : AesObj × Out Bytes :=
  if !o.keyset then (o, .throw)
  else if DATA.length ≠ 16 then (o, .throw)
  else (o, quadOut (aesEncBlock o.keys o.rounds (quadIn DATA)))

/-- One pass of the loop of `AES::decrypt` (AES.cpp:265-274), with the reversed `keys`. -/
def aesDecRound (keys : List Quad) (data : Quad) (r : Nat) : Quad :=
  aesInvMixColumns (((aesInvShiftRow data).map aesInvSubWord).xor (quadIx keys r))

/-- The block function of `AES::decrypt` (AES.cpp:261-284), with the reversed `keys`. -/
def aesDecBlock (keys : List Quad) (rounds : Nat) (data : Quad) : Quad :=
  let data := data.xor (quadIx keys 0)
  let data := (List.range' 1 (rounds - 1)).foldl (aesDecRound keys) data
  ((aesInvShiftRow data).map aesInvSubWord).xor (quadIx keys rounds)

/-- `AES::decrypt` (AES.cpp:242-288): `keys` is reversed, and reversed again before returning. -/
def aesDecrypt (o : AesObj) (DATA : Bytes) : AesObj × Out Bytes :=
  if !o.keyset then (o, .throw)
  else if DATA.length ≠ 16 then (o, .throw)
  else
    let keys := o.keys.reverse
    let out := quadOut (aesDecBlock keys o.rounds (quadIn DATA))
    ({ o with keys := keys.reverse }, out)

/-- The class `AES` (AES.h:36-56, AES.cpp:125-129, 290-292). -/
def aes : SymCipher AesObj where
  blocksize := 128
  fresh := ⟨false, 0, []⟩
  setkey := aesSetkey
  encrypt := aesEncrypt
  decrypt := aesDecrypt

end OpenPGP
