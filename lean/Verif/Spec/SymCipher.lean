import Verif.Spec.Aes
import Verif.Spec.Des
import Verif.Spec.Idea
import Verif.Spec.Camellia
import Verif.Spec.Twofish
import Verif.Spec.Blowfish
import Verif.Spec.Cast128

/-!
# The symmetric-key algorithms of OpenPGP

RFC 4880 9.2 and RFC 5581 3.
-/
namespace OpenPGP.Std

/-- A block cipher at one key size. -/
structure BlockCipher where
  keyOctets : Nat
  blockOctets : Nat
  encrypt : Bytes → Bytes → Bytes

/-- The cipher named by an OpenPGP algorithm number: "IDEA; TripleDES (DES-EDE, 168 bit key derived from 192); CAST5 (128 bit
key); Blowfish (128 bit key, 16 rounds); AES with 128-, 192-, 256-bit key; Twofish with 256-bit key"; Camellia with 128-, 192-,
256-bit key.  `S` stands for the S-boxes of CAST-128. -/
noncomputable def cipherOf (S : Cast128.SBoxes) (sym : UInt8) : Option BlockCipher :=
  if sym = 1 then some ⟨16, 8, Idea.encrypt⟩
  else if sym = 2 then some ⟨24, 8, Des.tripleEncrypt⟩
  else if sym = 3 then some ⟨16, 8, Cast128.encrypt S⟩
  else if sym = 4 then some ⟨16, 8, Blowfish.encrypt⟩
  else if sym = 7 then some ⟨16, 16, Aes.encrypt⟩
  else if sym = 8 then some ⟨24, 16, Aes.encrypt⟩
  else if sym = 9 then some ⟨32, 16, Aes.encrypt⟩
  else if sym = 10 then some ⟨32, 16, Twofish.encrypt⟩
  else if sym = 11 then some ⟨16, 16, Camellia.encrypt⟩
  else if sym = 12 then some ⟨24, 16, Camellia.encrypt⟩
  else if sym = 13 then some ⟨32, 16, Camellia.encrypt⟩
  else none

end OpenPGP.Std
