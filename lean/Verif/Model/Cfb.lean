import Verif.Model.Includes

/-!
# `src/Misc/cfb.cpp`: cipher feedback modes
-/
namespace OpenPGP

/-- A keyed block cipher object (`SymAlg`): block size in octets (`blocksize() >> 3`) and the block function. All
classes in `src/Encryptions` throw when the block given to `encrypt` has another size; `Cipher.encrypt`. -/
structure Cipher where
  bs : Nat
  enc : Bytes → Bytes

/-- The block function yields blocks, blocks are longer than the two repeated octets (8 or 16 in the library). -/
structure Cipher.Ok (c : Cipher) : Prop where
  bs_pos : 2 ≤ c.bs
  enc_len : ∀ b, b.length = c.bs → (c.enc b).length = c.bs

/-- `SymAlg::encrypt` with the size check of each cipher (for instance AES.cpp:181-184). -/
def Cipher.encrypt (c : Cipher) (b : Bytes) : Out Bytes :=
  if b.length = c.bs then .ok (c.enc b) else .throw

/-- Loop of `normal_CFB_encrypt` (cfb.cpp:180-184). -/
def cfbEncLoop (c : Cipher) (data : Bytes) : (fuel : Nat) → (iv : Bytes) → (x : Nat) → (out : Bytes) → Out Bytes
  | 0, _, _, _ => .diverge
  | fuel + 1, iv, x, out =>
    if out.length < data.length then do
      let e ← c.encrypt iv
      let d ← substr data x c.bs
      let iv := xorStrings e d
      cfbEncLoop c data fuel iv (x + c.bs) (out ++ iv)
    else .ok out

/-- `normal_CFB_encrypt` (cfb.cpp:176-186). -/
def normalCfbEncrypt (c : Cipher) (data iv : Bytes) : Out Bytes := cfbEncLoop c data (data.length + 1) iv 0 []

/-- Loop of `normal_CFB_decrypt` (cfb.cpp:192-196). -/
def cfbDecLoop (c : Cipher) (data : Bytes) : (fuel : Nat) → (iv : Bytes) → (x : Nat) → (out : Bytes) → Out Bytes
  | 0, _, _, _ => .diverge
  | fuel + 1, iv, x, out =>
    if x < data.length then do
      let e ← c.encrypt iv
      let d ← substr data x c.bs
      cfbDecLoop c data fuel d (x + c.bs) (out ++ xorStrings e d)
    else .ok out

/-- `normal_CFB_decrypt` (cfb.cpp:188-198). -/
def normalCfbDecrypt (c : Cipher) (data iv : Bytes) : Out Bytes := cfbDecLoop c data (data.length + 1) iv 0 []

/-- Loop of `OpenPGP_CFB_encrypt` (cfb.cpp:94-106). -/
def pgpEncLoop (c : Cipher) (data : Bytes) : (fuel x : Nat) → (C : Bytes) → Out Bytes
  | 0, _, _ => .diverge
  | fuel + 1, x, C =>
    if x < data.length then do
      let fr ← substr C (x + 2) c.bs
      let e ← c.encrypt fr
      let d ← substr data x c.bs
      pgpEncLoop c data fuel (x + c.bs) (C ++ xorStrings e d)
    else .ok C

/-- `OpenPGP_CFB_encrypt` (cfb.cpp:9-106); `tag` is 9 (resynchronisation) or 18 (none). -/
def pgpCfbEncrypt (c : Cipher) (tag : Nat) (data prefix_ : Bytes) : Out Bytes :=
  if prefix_.length < c.bs + 2 then .throw
  else do
    let prefix_ := prefix_.take (c.bs + 2)
    let fre ← c.encrypt (List.replicate c.bs 0)
    let C := xorStrings fre prefix_
    let fre ← c.encrypt C
    if tag = 9 then do
      let p2 ← substr prefix_ (c.bs - 2) 2
      let C := C ++ xorStrings (fre.take 2) p2
      let fr ← substr C 2 c.bs
      let fre ← c.encrypt fr
      let C := C ++ xorStrings fre (data.take c.bs)
      pgpEncLoop c data (data.length + 1) c.bs C
    else if tag = 18 then do
      let p2 ← substr prefix_ (c.bs - 2) 2
      let C := C ++ xorStrings fre (p2 ++ data.take (c.bs - 2))
      pgpEncLoop c data (data.length + 1) (c.bs - 2) C
    else .throw

/-- Loop of `OpenPGP_CFB_decrypt` (cfb.cpp:136-142): plaintext so far, last FRE and position. -/
def pgpDecLoop (c : Cipher) (data : Bytes) : (fuel x : Nat) → (fre P : Bytes) → Out (Bytes × Bytes × Nat)
  | 0, _, _, _ => .diverge
  | fuel + 1, x, fre, P =>
    if x + c.bs < data.length then do
      let s ← substr data x c.bs
      let e ← c.encrypt s
      pgpDecLoop c data fuel (x + c.bs) e (P ++ xorStrings fre s)
    else .ok (P, fre, x)

/-- `OpenPGP_CFB_decrypt` (cfb.cpp:108-143). -/
def pgpCfbDecrypt (c : Cipher) (tag : Nat) (data : Bytes) : Out Bytes := do
  let fre ← c.encrypt (List.replicate c.bs 0)
  let fr := data.take c.bs
  let prefix_ := xorStrings fre fr
  let fre ← c.encrypt fr
  let p2 ← substr prefix_ (c.bs - 2) 2
  let d2 ← substr data c.bs 2
  if p2 ≠ xorStrings (fre.take 2) d2 then .throw
  else do
    let (P, fre, x) ← pgpDecLoop c data (data.length + 1) (if tag = 9 then 2 else 0) fre []
    let s ← substr data x c.bs
    let P := P ++ xorStrings fre s
    let P ← substr P c.bs (P.length - c.bs)
    return prefix_ ++ (if tag = 9 then p2 else []) ++ P

end OpenPGP
