import Verif.Model.Cfb
import Verif.Model.Mpi
import Mathlib.Tactic.Tauto

/-!
# Algorithm tables (`include/Hashes/Hashes.h`, `include/Encryptions/Encryptions.h`) and the cryptographic primitives

The packet layer is modelled over an arbitrary `Crypto`: a family of digest functions and of keyed block ciphers.
-/
namespace OpenPGP

/-- `std::map::at`: throws `std::out_of_range` for a missing key. -/
def mapAt {α : Type} : Option α → Out α
  | some a => .ok a
  | none => .throw

/-- `Hash::LENGTH` (Hashes.h:117-125), in octets. -/
def hashLen (alg : UInt8) : Option Nat :=
  if alg = 1 then some 16
  else if alg = 2 then some 20
  else if alg = 3 then some 20
  else if alg = 8 then some 32
  else if alg = 9 then some 48
  else if alg = 10 then some 64
  else if alg = 11 then some 28
  else none

/-- `Sym::BLOCK_LENGTH` (Encryptions.h:129-141), in octets. -/
def blockLen (sym : UInt8) : Option Nat :=
  if sym = 1 ∨ sym = 2 ∨ sym = 3 ∨ sym = 4 then some 8
  else if 7 ≤ sym ∧ sym ≤ 13 then some 16
  else none

/-- `Sym::KEY_LENGTH` (Encryptions.h:143-155), in octets. -/
def keyLen (sym : UInt8) : Option Nat :=
  if sym = 1 ∨ sym = 3 ∨ sym = 4 ∨ sym = 7 ∨ sym = 11 then some 16
  else if sym = 2 ∨ sym = 8 ∨ sym = 12 then some 24
  else if sym = 9 ∨ sym = 10 ∨ sym = 13 then some 32
  else none

/-- The primitives: `hash a d` is the digest of `d` under algorithm `a`, `cipher s k` the block cipher object built for
algorithm `s` and key `k` (whose constructor may throw). -/
structure Crypto where
  hash : UInt8 → Bytes → Bytes
  cipher : UInt8 → Bytes → Out Cipher

/-- The primitives have the advertised sizes: digests those of `Hash::LENGTH`, and every cipher accepts keys of
`Sym::KEY_LENGTH` octets and has blocks of `Sym::BLOCK_LENGTH` octets. -/
structure Crypto.Ok (cr : Crypto) : Prop where
  hash_len : ∀ a n d, hashLen a = some n → (cr.hash a d).length = n
  cipher_ok : ∀ s n k, keyLen s = some n → k.length = n → ∃ c, cr.cipher s k = .ok c ∧ c.Ok ∧ blockLen s = some c.bs

/-- `Hash::use` (Hashes.cpp:10-44): unknown algorithms throw. -/
def hashUse (cr : Crypto) (alg : UInt8) (data : Bytes) : Out Bytes :=
  if (hashLen alg).isSome then .ok (cr.hash alg data) else .throw

/-- `Sym::setup` (Encryptions.cpp:10-43): unknown algorithms throw. -/
def symSetup (cr : Crypto) (sym : UInt8) (key : Bytes) : Out Cipher :=
  if (blockLen sym).isSome then cr.cipher sym key else .throw

/-- `use_normal_CFB_encrypt` (cfb.cpp:187-194). -/
def useNormalCfbEncrypt (cr : Crypto) (sym : UInt8) (data key iv : Bytes) : Out Bytes :=
  if sym = 0 then .ok data else do
    let c ← symSetup cr sym key
    normalCfbEncrypt c data iv

/-- `use_normal_CFB_decrypt` (cfb.cpp:196-203). -/
def useNormalCfbDecrypt (cr : Crypto) (sym : UInt8) (data key iv : Bytes) : Out Bytes :=
  if sym = 0 then .ok data else do
    let c ← symSetup cr sym key
    normalCfbDecrypt c data iv

/-- `use_OpenPGP_CFB_encrypt` (cfb.cpp:145-152). -/
def usePgpCfbEncrypt (cr : Crypto) (sym : UInt8) (tag : Nat) (data key prefix_ : Bytes) : Out Bytes :=
  if sym = 0 then .ok data else do
    let c ← symSetup cr sym key
    pgpCfbEncrypt c tag data prefix_

/-- `use_OpenPGP_CFB_decrypt` (cfb.cpp:154-161). -/
def usePgpCfbDecrypt (cr : Crypto) (sym : UInt8) (tag : Nat) (data key : Bytes) : Out Bytes :=
  if sym = 0 then .ok data else do
    let c ← symSetup cr sym key
    pgpCfbDecrypt c tag data

/-- A family of primitives meeting `Crypto.Ok`, used to show that hypotheses can be met. -/
def demoCrypto : Crypto where
  hash := fun a d => List.replicate ((hashLen a).getD 0) (UInt8.ofNat (d.length + num d))
  cipher := fun s k => .ok ⟨(blockLen s).getD 8, fun b => b.map (· ^^^ UInt8.ofNat (num k))⟩

theorem keyLen_blockLen {s : UInt8} {n : Nat} (h : keyLen s = some n) : ∃ b, blockLen s = some b ∧ 2 ≤ b := by
  revert h
  unfold keyLen blockLen
  intro h
  have : s = 1 ∨ s = 3 ∨ s = 4 ∨ s = 7 ∨ s = 11 ∨ s = 2 ∨ s = 8 ∨ s = 12 ∨ s = 9 ∨ s = 10 ∨ s = 13 := by
    split at h
    · tauto
    · split at h
      · tauto
      · split at h
        · tauto
        · exact absurd h (by simp)
  rcases this with rfl | rfl | rfl | rfl | rfl | rfl | rfl | rfl | rfl | rfl | rfl <;> decide

theorem demoCrypto_ok : demoCrypto.Ok where
  hash_len := by intro a n d h; simp [demoCrypto, h]
  cipher_ok := by
    intro s n k h _
    obtain ⟨b, hb, h2⟩ := keyLen_blockLen h
    refine ⟨_, rfl, ⟨by simp [hb, h2], ?_⟩, by simp [hb]⟩
    intro x hx
    simpa using hx

end OpenPGP
