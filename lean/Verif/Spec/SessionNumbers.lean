import Verif.Base
import Mathlib.Data.Nat.Size

/-!
# The numbers of session key packets as RFC 4880 5.1, 13.1.1 and RFC 3447 have them

Written from the RFCs alone. `Nat.size n` is the number of bits of `n`.
-/
namespace OpenPGP

/-- What is encrypted: the cipher, the session key and the sum of the octets of the key modulo 65536. -/
def rfcSessionOctets (sym : UInt8) (key : Bytes) : Bytes := sym :: (key ++ be 2 ((key.map UInt8.toNat).sum % 65536))

/-- `EM = 0x00 || 0x02 || PS || 0x00 || M`. -/
def rfcSessionEncoded (ps : Bytes) (sym : UInt8) (key : Bytes) : Bytes := 0 :: 2 :: (ps ++ 0 :: rfcSessionOctets sym key)

/-- The number stands for the session key under the modulus `n`: at least eight octets of padding, none of them zero, and an encoding of the length of the modulus. -/
def SessionNumber (n : Nat) (sym : UInt8) (key : Bytes) (m : Nat) : Prop :=
  ∃ ps : Bytes, (∀ c ∈ ps, c ≠ 0) ∧ 8 ≤ ps.length ∧ (rfcSessionEncoded ps sym key).length = (n.size + 7) / 8 ∧ m = num (rfcSessionEncoded ps sym key)

/-- The values `c` are an encryption of `m` to the public values: `m ^ e mod n` for RSA (1, 2), `g ^ k mod p` and `m y ^ k mod p` for ElGamal (16). -/
def EncryptionOf (pka : UInt8) (pub c : List Nat) (m : Nat) : Prop :=
  ((pka = 1 ∨ pka = 2) ∧ ∃ n e, pub = [n, e] ∧ m < n ∧ c = [m ^ e % n]) ∨
  (pka = 16 ∧ ∃ p g y k, pub = [p, g, y] ∧ m < p ∧ c = [g ^ k % p, m * y ^ k % p])

end OpenPGP
