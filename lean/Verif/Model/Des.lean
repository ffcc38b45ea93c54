import Verif.Model.CipherBase

/-!
# Models of `src/Encryptions/DES.cpp` and `src/Encryptions/TDES.cpp`

The code works on `std::string`s of the characters `0` and `1`; here such a string of `n` characters is a
`BitVec n` whose most significant bit is the first character, so `makebin(v, n)` and `toint(s, 2)` are conversions
between a number and such a string.
-/
namespace OpenPGP

/-- `DES_IP` (DES_Const.h:28-35). -/
def desIP : List Nat := [58, 50, 42, 34, 26, 18, 10, 2, 60, 52, 44, 36, 28, 20, 12, 4, 62, 54, 46, 38, 30, 22, 14, 6, 64, 56, 48, 40, 32, 24, 16, 8, 57, 49, 41, 33, 25, 17, 9, 1, 59, 51, 43, 35, 27, 19, 11, 3, 61, 53, 45, 37, 29, 21, 13, 5, 63, 55, 47, 39, 31, 23, 15, 7]

/-- `DES_EX` (DES_Const.h:37-44). -/
def desEX : List Nat := [32, 1, 2, 3, 4, 5, 4, 5, 6, 7, 8, 9, 8, 9, 10, 11, 12, 13, 12, 13, 14, 15, 16, 17, 16, 17, 18, 19, 20, 21, 20, 21, 22, 23, 24, 25, 24, 25, 26, 27, 28, 29, 28, 29, 30, 31, 32, 1]

/-- `DES_P` (DES_Const.h:46-53). -/
def desP : List Nat := [16, 7, 20, 21, 29, 12, 28, 17, 1, 15, 23, 26, 5, 18, 31, 10, 2, 8, 24, 14, 32, 27, 3, 9, 19, 13, 30, 6, 22, 11, 4, 25]

/-- `DES_INVIP` (DES_Const.h:55-62). -/
def desINVIP : List Nat := [40, 8, 48, 16, 56, 24, 64, 32, 39, 7, 47, 15, 55, 23, 63, 31, 38, 6, 46, 14, 54, 22, 62, 30, 37, 5, 45, 13, 53, 21, 61, 29, 36, 4, 44, 12, 52, 20, 60, 28, 35, 3, 43, 11, 51, 19, 59, 27, 34, 2, 42, 10, 50, 18, 58, 26, 33, 1, 41, 9, 49, 17, 57, 25]

/-- `DES_PC1_l` (DES_Const.h:104-107). -/
def desPC1l : List Nat := [57, 49, 41, 33, 25, 17, 9, 1, 58, 50, 42, 34, 26, 18, 10, 2, 59, 51, 43, 35, 27, 19, 11, 3, 60, 52, 44, 36]

/-- `DES_PC1_r` (DES_Const.h:109-112). -/
def desPC1r : List Nat := [63, 55, 47, 39, 31, 23, 15, 7, 62, 54, 46, 38, 30, 22, 14, 6, 61, 53, 45, 37, 29, 21, 13, 5, 28, 20, 12, 4]

/-- `DES_rot` (DES_Const.h:114-114). -/
def desRot : List Nat := [1, 1, 2, 2, 2, 2, 2, 2, 1, 2, 2, 2, 2, 2, 2, 1]

/-- `DES_PC2` (DES_Const.h:116-123). -/
def desPC2 : List Nat := [14, 17, 11, 24, 1, 5, 3, 28, 15, 6, 21, 10, 23, 19, 12, 4, 26, 8, 16, 7, 27, 20, 13, 2, 41, 52, 31, 37, 47, 55, 30, 40, 51, 45, 33, 48, 44, 49, 39, 56, 34, 53, 46, 42, 50, 36, 29, 32]

/-- `DES_S_BOX[y][i][j]` at position `64 * y + 16 * i + j` (DES_Const.h:64-102). -/
def desSBoxT : Nat :=
  0xe4d12fb83a6c59070f74e2d1a6cb953841e8d62bfc973a50fc8249175b3ea06df18e6b34972dc05a3d47f28ec01a69b50e7ba4d158c6932fd8a13f42b67c05e9a09e63f51dc7b428d709346a285ecbf1d6498f30b12c5ae71ad069874fe3b52c7de3069a1285bc4fd8b56f03472c1ae9a690cb7df13e52843f06a1d8945bc72e2c417ab6853fd0e9eb2c47d150fa3986421bad78f9c5630eb8c71e2d6f09a453c1af92680d34e75baf427c9561de0b389ef528c3704a1db6432c95fabe17608d4b2ef08d3c975a61d0b7491ae35c2f8614bdc37eaf6805926bd814a7950fe23cd2846fb1a93e50c71fd8a374c56b0e927b419ce206adf35821e74a8dfc90356b

/-- `for (y …) temp += s[T[y] - 1];` (DES.cpp:17-19, 30-32, 54-56, 97-100, 106-107): the string of the characters of `s`
at the positions listed in `T` (counted from 1), as a number. -/
def pickBits {n : Nat} (T : List Nat) (s : BitVec n) : Nat :=
  T.foldl (fun acc i => 2 * acc + (s.getMsbD (i - 1)).toNat) 0

/-- The body of the round: `right` after expansion, key, S-boxes and permutation (DES.cpp:27-56). -/
def desF (right : BitVec 32) (key : BitVec 64) : BitVec 32 :=
  let t := BitVec.ofNat 64 (pickBits desEX right)
  let r : BitVec 48 := (t ^^^ key).setWidth 48
  let temp : Nat := (List.range 8).foldl (fun acc y =>
      let R : BitVec 6 := r.extractLsb' (6 * (7 - y)) 6
      let s := (R.getMsbD 0).toNat * 2 + (R.getMsbD 5).toNat
      let m := (R.extractLsb' 1 4).toNat
      16 * acc + (tab 4 desSBoxT 512 (64 * y + 16 * s + m)).toNat) 0
  BitVec.ofNat 32 (pickBits desP (BitVec.ofNat 32 temp))

/-- One pass of the loop of `DES::run` (DES.cpp:21-60) on `data` = left and right halves. -/
def desRound (d : BitVec 32 × BitVec 32) (key : BitVec 64) : BitVec 32 × BitVec 32 :=
  (d.2, d.1 ^^^ desF d.2 key)

/-- A `DES` object (DES.h:37). -/
structure DesObj where
  keyset : Bool
  keys : List (BitVec 64)
  deriving DecidableEq

/-- The part of `DES::run` after the checks (DES.cpp:12-69): `out += (data[DES_INVIP[x] - 1] == '1') << (63 - x)`
collects the selected characters, the first one most significant. -/
def desBlock (keys : List (BitVec 64)) (DATA : Bytes) : Out Bytes :=
  let data : BitVec 64 := BitVec.ofNat 64 (num DATA)
  let data : BitVec 64 := BitVec.ofNat 64 (pickBits desIP data)
  let d := keys.foldl desRound (data.extractLsb' 32 32, data.extractLsb' 0 32)
  let data : BitVec 64 := d.2 ++ d.1
  unhexlify (makehex (pickBits desINVIP data) 16 false)

/-- `DES::run` (DES.cpp:3-70). -/
def desRun (o : DesObj) (DATA : Bytes) : Out Bytes :=
  if !o.keyset then .throw
  else if DATA.length ≠ 8 then .throw
  else desBlock o.keys DATA

/-- `left = (left + left).substr(r, 28)` (DES.cpp:103-104): a rotation of the 28 characters. -/
def desRotate (s : BitVec 28) (r : Nat) : BitVec 28 := (s ++ s).extractLsb' (28 - r) 28

/-- The loop of `DES::setkey` (DES.cpp:102-109). -/
def desSchedule : List Nat → BitVec 28 → BitVec 28 → List (BitVec 64)
  | [], _, _ => []
  | r :: rs, left, right =>
    let left := desRotate left r
    let right := desRotate right r
    BitVec.ofNat 64 (pickBits desPC2 (left ++ right)) :: desSchedule rs left right

/-- `DES::setkey` (DES.cpp:83-112). -/
def desSetkey (o : DesObj) (KEY : Bytes) : Out DesObj :=
  if o.keyset then .throw
  else if KEY.length ≠ 8 then .throw
  else
    let key : BitVec 64 := BitVec.ofNat 64 (num KEY)
    let left : BitVec 28 := BitVec.ofNat 28 (pickBits desPC1l key)
    let right : BitVec 28 := BitVec.ofNat 28 (pickBits desPC1r key)
    .ok ⟨true, desSchedule desRot left right⟩

/-- `DES::decrypt` (DES.cpp:118-123): `keys` is reversed, `run` is called, `keys` is reversed again; when `run` throws,
`keys` stays reversed. -/
def desDecrypt (o : DesObj) (DATA : Bytes) : DesObj × Out Bytes :=
  let o : DesObj := { o with keys := o.keys.reverse }
  match desRun o DATA with
  | .ok out => ({ o with keys := o.keys.reverse }, .ok out)
  | e => (o, e)

/-- The class `DES` (DES.h:35-47, DES.cpp:72-81, 114-116, 125-127). -/
def des : SymCipher DesObj where
  blocksize := 64
  fresh := ⟨false, List.replicate 16 0⟩
  setkey := desSetkey
  encrypt := fun o d => (o, desRun o d)
  decrypt := desDecrypt

/-- A `TDES` object (TDES.h:32-33). -/
structure TdesObj where
  keyset : Bool
  k1 : Bytes
  k2 : Bytes
  k3 : Bytes
  m1 : Bool
  m2 : Bool
  m3 : Bool
  deriving DecidableEq

/-- `TDES::run` (TDES.cpp:3-16). -/
def tdesRun (o : TdesObj) (data key : Bytes) (mode : Bool) : Out Bytes :=
  if !o.keyset then .throw
  else if data.length ≠ 8 then .throw
  else do
    let d ← des.make key
    if !mode then (des.encrypt d data).2 else (des.decrypt d data).2

/-- `TDES::setkey` (TDES.cpp:30-55). -/
def tdesSetkey (o : TdesObj) (key1 : Bytes) (mode1 : Bytes) (key2 : Bytes) (mode2 : Bytes) (key3 : Bytes)
    (mode3 : Bytes) : Out TdesObj :=
  if o.keyset then .throw
  else if key1.length ≠ 8 then .throw
  else if key2.length ≠ 8 then .throw
  else if key3.length ≠ 8 then .throw
  else .ok ⟨true, key1, key2, key3, decide (mode1 = [0x64]), decide (mode2 = [0x64]), decide (mode3 = [0x64])⟩

/-- `TDES::encrypt` (TDES.cpp:57-59). -/
def tdesEncrypt (o : TdesObj) (DATA : Bytes) : Out Bytes := do
  let a ← tdesRun o DATA o.k1 o.m1
  let b ← tdesRun o a o.k2 o.m2
  tdesRun o b o.k3 o.m3

/-- `TDES::decrypt` (TDES.cpp:61-63). -/
def tdesDecrypt (o : TdesObj) (DATA : Bytes) : Out Bytes := do
  let a ← tdesRun o DATA o.k1 (!o.m1)
  let b ← tdesRun o a o.k2 (!o.m2)
  tdesRun o b o.k3 (!o.m3)

/-- The class `TDES` as `Sym::setup` constructs it (TDES.h:30-43, TDES.cpp:18-22, 65-67, Encryptions.cpp:17,
Encryptions.h:158-160): the three keys are cut out of one string, the modes are `e`, `d`, `e`. -/
def tdes : SymCipher TdesObj where
  blocksize := 64
  fresh := ⟨false, [], [], [], false, false, false⟩
  setkey := fun o key => do
    let key1 ← substr key 0 8
    let key2 ← substr key 8 8
    let key3 ← substr key 16 8
    tdesSetkey o key1 [0x65] key2 [0x64] key3 [0x65]
  encrypt := fun o d => (o, tdesEncrypt o d)
  decrypt := fun o d => (o, tdesDecrypt o d)

end OpenPGP
