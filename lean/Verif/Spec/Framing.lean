import Verif.Base

/-!
# RFC 4880 section 4.2: packet headers
-/
namespace OpenPGP.Spec

/-- New-format body length, section 4.2.2.1 - 4.2.2.3. -/
def rfcNewLength (n : Nat) : Bytes :=
  if n < 192 then [UInt8.ofNat n]
  else if n < 8384 then [UInt8.ofNat ((n - 192) / 256 + 192), UInt8.ofNat ((n - 192) % 256)]
  else 255 :: be 4 n

/-- New-format packet with a definite length. -/
def rfcNewPacket (tag : Nat) (body : Bytes) : Bytes :=
  UInt8.ofNat (192 + tag) :: (rfcNewLength body.length ++ body)

/-- Old-format packet with the shortest length type, section 4.2.1. -/
def rfcOldPacket (tag : Nat) (body : Bytes) : Bytes :=
  (if body.length < 256 then UInt8.ofNat (128 + 4 * tag) :: be 1 body.length
   else if body.length < 65536 then UInt8.ofNat (128 + 4 * tag + 1) :: be 2 body.length
   else UInt8.ofNat (128 + 4 * tag + 2) :: be 4 body.length) ++ body

/-- Partial chunks, section 4.2.2.4: `(k, c)` is a chunk `c` of `2^k` octets. -/
def rfcChunks (chunks : List (Nat × Bytes)) : Bytes :=
  chunks.flatMap fun kc => UInt8.ofNat (224 + kc.1) :: kc.2

/-- Every chunk has the size it announces (and an exponent that can be announced). -/
def chunksOk (chunks : List (Nat × Bytes)) : Prop := ∀ kc ∈ chunks, kc.1 < 31 ∧ kc.2.length = 2 ^ kc.1

/-- A packet in partial form: chunks followed by a last piece of definite length. -/
def rfcPartialPacket (tag : Nat) (chunks : List (Nat × Bytes)) (last : Bytes) : Bytes :=
  UInt8.ofNat (192 + tag) :: (rfcChunks chunks ++ (rfcNewLength last.length ++ last))

/-- The body such a packet stands for. -/
def partialBody (chunks : List (Nat × Bytes)) (last : Bytes) : Bytes :=
  (chunks.flatMap fun kc => kc.2) ++ last

end OpenPGP.Spec
