import Verif.Model.Aes
import Verif.Model.Des
import Verif.Model.Blowfish
import Verif.Model.Cast128
import Verif.Model.Twofish
import Verif.Model.Idea
import Verif.Model.Camellia
import Verif.Model.Algs

/-!
# `Sym::setup` with the library's own ciphers

The packet layer uses block ciphers only through `encrypt` (the CFB modes), and `encrypt` changes no cipher object
(`C51_encrypt_keeps_object`), so a keyed object is a block function there.
-/
namespace OpenPGP

/-- A keyed object as the CFB code uses it: `blocksize() >> 3` and `encrypt`. -/
def SymCipher.asCipher {S : Type} (c : SymCipher S) (o : S) : Cipher where
  bs := c.blocksize / 8
  enc := fun b => match (c.encrypt o b).2 with
    | .ok e => e
    | _ => []

/-- `std::make_shared <Class> (key)`. -/
def SymCipher.build {S : Type} (c : SymCipher S) (key : Bytes) : Out Cipher := do
  let o ← c.make key
  pure (c.asCipher o)

/-- The class `Sym::setup` constructs (Encryptions.cpp:12-42). -/
def symClass (sym : UInt8) : Option (Σ S : Type, SymCipher S) :=
  if sym = 1 then some ⟨_, idea⟩
  else if sym = 2 then some ⟨_, tdes⟩
  else if sym = 3 then some ⟨_, cast128⟩
  else if sym = 4 then some ⟨_, blowfish⟩
  else if sym = 7 ∨ sym = 8 ∨ sym = 9 then some ⟨_, aes⟩
  else if sym = 10 then some ⟨_, twofish⟩
  else if sym = 11 ∨ sym = 12 ∨ sym = 13 then some ⟨_, camellia⟩
  else none

/-- `Sym::setup` (Encryptions.cpp:12-42): unknown algorithms throw. -/
def builtinSetup (sym : UInt8) (key : Bytes) : Out Cipher :=
  match symClass sym with
  | some c => c.2.build key
  | none => .throw

/-- The library's own primitives (Hashes.cpp:10-42, Encryptions.cpp:12-42).  For the data on which a hash function does
not return (4 GiB and more, `C41_huge_update_diverges`) a block of zeros stands for its value. -/
def builtinCrypto : Crypto where
  hash := fun a d => match builtinHash a d with
    | .ok h => h
    | _ => List.replicate ((hashLen a).getD 0) 0
  cipher := builtinSetup

end OpenPGP
