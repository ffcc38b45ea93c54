import Verif.Model.CipherBase

/-!
# Model of `src/Encryptions/Camellia.cpp`

The class works on `std::string`s; they are modelled as octet lists.
-/
namespace OpenPGP

/-- `Camellia_SBox` (Camellia_Const.h:35-50). -/
def camSBoxT : Nat :=
  0x70822cecb327c0e5e4855735ea0cae4123ef6b934519a521ed0e4f4e1d6592bd86b8af8f7ceb1fce3e30dc5f5ec50b1aa6e139cad5475d3dd9015ad651566c4d8b0d9a66fbccb02d74122b20f0b18499df4ccbc2347e76056db7a931d11704d714583a61de1b111c320f9c165318f222fe44cfb2c3b57a912408e8a860fc6950aad0a07da1896297545b1e95e0ff64d210c40048a3f775db8a03e6da093fdd94875c8302cd4a90337367f6f39d7fbfe2529bd826c837c63b81966f4b13be632ee979a78c9f6ebc8e29f5f9b62ffdb4597898066ae74671bad425ab4288a28dfa7207b955f8eeac0a36492a683c38f1a44028d37bbbc943c115e3adf477c7809e

/-- `Camellia_SBox[i]`. -/
def camS (i : BitVec 8) : BitVec 8 := tab 8 camSBoxT 256 i.toNat

/-- `Camellia_Sigma` (Camellia_Const.h:28-33), the strings `unhexlify` returns for the constants. -/
def camSigma : List Bytes :=
  [[0xA0, 0x9E, 0x66, 0x7F, 0x3B, 0xCC, 0x90, 0x8B], [0xB6, 0x7A, 0xE8, 0x58, 0x4C, 0xAA, 0x73, 0xB2],
   [0xC6, 0xEF, 0x37, 0x2F, 0xE9, 0x4F, 0x82, 0xBE], [0x54, 0xFF, 0x53, 0xA5, 0xF1, 0xD3, 0x6F, 0x1C],
   [0x10, 0xE5, 0x27, 0xFA, 0xDE, 0x68, 0x2D, 0x1D], [0xB0, 0x56, 0x88, 0xC2, 0xB3, 0xE6, 0xC1, 0xFD]]

/-- `ROL` on a string (includes.cpp:190-209).  The loop replaces `out[i - 1]` before it reads `out[i]`'s successor, so
each new octet is made of two old ones, the last of the last and the first. -/
def rolString (str : Bytes) (bits : Nat) : Bytes :=
  if str.length = 0 then [] else
  let out := ((str ++ str).drop (bits >>> 3)).take str.length
  let push := bits &&& 7
  if push = 0 then out else
  let pull := 8 - push
  (List.range out.length).map fun i =>
    (out.getD i 0 <<< UInt8.ofNat push) ||| (out.getD ((i + 1) % out.length) 0 >>> UInt8.ofNat pull)

/-- `Camellia::SBOX` (Camellia.cpp:3-16). -/
def camSBOX (s : Nat) (value : UInt8) : UInt8 :=
  if s = 1 then ⟨camS value.toBitVec⟩
  else if s = 2 then ⟨rol (camS value.toBitVec) 1 8⟩
  else if s = 3 then ⟨rol (camS value.toBitVec) 7 8⟩
  else ⟨camS (rol value.toBitVec 1 8)⟩

/-- `Camellia::FL` (Camellia.cpp:18-26). -/
def camFL (x k : Bytes) : Bytes :=
  let x1 := x.take 4
  let x2 := (x.drop 4).take 4
  let k1 := k.take 4
  let k2 := (k.drop 4).take 4
  let x2 := xorStrings x2 (rolString (andStrings x1 k1) 1)
  let x1 := xorStrings x1 (orStrings x2 k2)
  x1 ++ x2

/-- `Camellia::FLINV` (Camellia.cpp:28-36). -/
def camFLINV (y k : Bytes) : Bytes :=
  let y1 := y.take 4
  let y2 := (y.drop 4).take 4
  let k1 := k.take 4
  let k2 := (k.drop 4).take 4
  let y1 := xorStrings y1 (orStrings y2 k2)
  let y2 := xorStrings y2 (rolString (andStrings y1 k1) 1)
  y1 ++ y2

/-- `Camellia::F` (Camellia.cpp:38-64). -/
def camF (F_IN KE : Bytes) : Bytes :=
  let x := xorStrings F_IN KE
  let t1 := camSBOX 1 (x.getD 0 0)
  let t2 := camSBOX 2 (x.getD 1 0)
  let t3 := camSBOX 3 (x.getD 2 0)
  let t4 := camSBOX 4 (x.getD 3 0)
  let t5 := camSBOX 2 (x.getD 4 0)
  let t6 := camSBOX 3 (x.getD 5 0)
  let t7 := camSBOX 4 (x.getD 6 0)
  let t8 := camSBOX 1 (x.getD 7 0)
  [t1 ^^^ t3 ^^^ t4 ^^^ t6 ^^^ t7 ^^^ t8, t1 ^^^ t2 ^^^ t4 ^^^ t5 ^^^ t7 ^^^ t8, t1 ^^^ t2 ^^^ t3 ^^^ t5 ^^^ t6 ^^^ t8,
   t2 ^^^ t3 ^^^ t4 ^^^ t5 ^^^ t6 ^^^ t7, t1 ^^^ t2 ^^^ t6 ^^^ t7 ^^^ t8, t2 ^^^ t3 ^^^ t5 ^^^ t7 ^^^ t8,
   t3 ^^^ t4 ^^^ t5 ^^^ t6 ^^^ t8, t1 ^^^ t4 ^^^ t5 ^^^ t6 ^^^ t7]

/-- `D2 = xor_strings(D2, F(D1, ka)); D1 = xor_strings(D1, F(D2, kb));` (for instance Camellia.cpp:106-107) on
`(D1, D2)`. -/
def camTwo (d : Bytes × Bytes) (ka kb : Bytes) : Bytes × Bytes :=
  let D2 := xorStrings d.2 (camF d.1 ka)
  let D1 := xorStrings d.1 (camF D2 kb)
  (D1, D2)

/-- `D1 = FL(D1, ka); D2 = FLINV(D2, kb);` (for instance Camellia.cpp:112-113). -/
def camFLs (d : Bytes × Bytes) (ka kb : Bytes) : Bytes × Bytes := (camFL d.1 ka, camFLINV d.2 kb)

/-- A `Camellia` object (Camellia.h:43-44); `keysize` is a `uint16_t`. -/
structure CamObj where
  keyset : Bool
  keysize : Nat
  keys : List Bytes
  deriving DecidableEq

/-- The part of `Camellia::run` after the checks (Camellia.cpp:75-201). -/
def camBlock (keysize : Nat) (keys : List Bytes) (data : Bytes) : Bytes :=
  let k := fun i => keys.getD i []
  let d : Bytes × Bytes := (xorStrings (data.take 8) (k 0), xorStrings ((data.drop 8).take 8) (k 1))
  if keysize = 16 then
    let d := camTwo d (k 2) (k 3)
    let d := camTwo d (k 4) (k 5)
    let d := camTwo d (k 6) (k 7)
    let d := camFLs d (k 11) (k 12)
    let d := camTwo d (k 8) (k 9)
    let d := camTwo d (k 10) (k 15)
    let d := camTwo d (k 16) (k 17)
    let d := camFLs d (k 13) (k 14)
    let d := camTwo d (k 18) (k 19)
    let d := camTwo d (k 20) (k 21)
    let d := camTwo d (k 22) (k 23)
    xorStrings d.2 (k 25) ++ xorStrings d.1 (k 24)
  else
    let d := camTwo d (k 2) (k 3)
    let d := camTwo d (k 4) (k 5)
    let d := camTwo d (k 6) (k 7)
    let d := camFLs d (k 14) (k 15)
    let d := camTwo d (k 8) (k 9)
    let d := camTwo d (k 10) (k 11)
    let d := camTwo d (k 12) (k 13)
    let d := camFLs d (k 16) (k 17)
    let d := camTwo d (k 20) (k 21)
    let d := camTwo d (k 22) (k 23)
    let d := camTwo d (k 24) (k 25)
    let d := camFLs d (k 18) (k 19)
    let d := camTwo d (k 26) (k 27)
    let d := camTwo d (k 28) (k 29)
    let d := camTwo d (k 30) (k 31)
    xorStrings d.2 (k 33) ++ xorStrings d.1 (k 32)

/-- `Camellia::run` (Camellia.cpp:66-202). -/
def camRun (o : CamObj) (data : Bytes) : Out Bytes :=
  if !o.keyset then .throw
  else if data.length ≠ 16 then .throw
  else .ok (camBlock o.keysize o.keys data)

/-- The subkeys pushed by `setkey` (Camellia.cpp:260-354). -/
def camKeys (keysize : Nat) (KL KR KA KB : Bytes) : List Bytes :=
  let h0 := fun K bits => (rolString K bits).take 8
  let h1 := fun K bits => ((rolString K bits).drop 8).take 8
  if keysize = 16 then
    [h0 KL 0, h1 KL 0, h0 KA 0, h1 KA 0, h0 KL 15, h1 KL 15,
     h0 KA 15, h1 KA 15, h0 KL 45, h1 KL 45, h0 KA 45, h0 KA 30,
     h1 KA 30, h0 KL 77, h1 KL 77, h1 KL 60, h0 KA 60, h1 KA 60,
     h0 KL 94, h1 KL 94, h0 KA 94, h1 KA 94, h0 KL 111, h1 KL 111,
     h1 KA 111, h0 KA 111]
  else
    [h0 KL 0, h1 KL 0, h0 KB 0, h1 KB 0, h0 KR 15, h1 KR 15,
     h0 KA 15, h1 KA 15, h0 KB 30, h1 KB 30, h0 KL 45, h1 KL 45,
     h0 KA 45, h1 KA 45, h0 KR 30, h1 KR 30, h0 KL 60, h1 KL 60,
     h0 KA 77, h1 KA 77, h0 KR 60, h1 KR 60, h0 KB 60, h1 KB 60,
     h0 KL 77, h1 KL 77, h0 KR 94, h1 KR 94, h0 KA 94, h1 KA 94,
     h0 KL 111, h1 KL 111, h1 KB 111, h0 KB 111]

/-- `Camellia::setkey` (Camellia.cpp:216-357).  `uint16_t keysize = KEY.size()` keeps the size modulo 65536. -/
def camSetkey (o : CamObj) (KEY : Bytes) : Out CamObj :=
  if o.keyset then .throw else
  let keysize := KEY.length % 65536
  if keysize ≠ 16 ∧ keysize ≠ 24 ∧ keysize ≠ 32 then .throw else
  let KL := if keysize = 16 then KEY else KEY.take 16
  let KR := if keysize = 16 then List.replicate 16 0
    else if keysize = 24 then
      let r := (KEY.drop 16).take 8
      r ++ xorStrings r (List.replicate 8 0xff)
    else (KEY.drop 16).take 16
  let sg := fun i => camSigma.getD i []
  let D := xorStrings KL KR
  let d := camTwo (D.take 8, (D.drop 8).take 8) (sg 0) (sg 1)
  let d := (xorStrings d.1 (KL.take 8), xorStrings d.2 ((KL.drop 8).take 8))
  let d := camTwo d (sg 2) (sg 3)
  let KA := d.1 ++ d.2
  let AR := xorStrings KA KR
  let d := camTwo (AR.take 8, (AR.drop 8).take 8) (sg 4) (sg 5)
  let KB := d.1 ++ d.2
  .ok ⟨true, keysize, o.keys ++ camKeys keysize KL KR KA KB⟩

/-- `Camellia::decrypt` (Camellia.cpp:363-368): the keys are reversed, `run` is called, the keys are reversed again; when
`run` throws, they stay reversed. -/
def camDecrypt (o : CamObj) (DATA : Bytes) : CamObj × Out Bytes :=
  let o : CamObj := { o with keys := o.keys.reverse }
  match camRun o DATA with
  | .ok out => ({ o with keys := o.keys.reverse }, .ok out)
  | e => (o, e)

/-- The class `Camellia` (Camellia.h:37-58, Camellia.cpp:204-214, 359-361, 370-372). -/
def camellia : SymCipher CamObj where
  blocksize := 128
  fresh := ⟨false, 0, []⟩
  setkey := camSetkey
  encrypt := fun o d => (o, camRun o d)
  decrypt := camDecrypt

end OpenPGP
