import Verif.Props.C19
import Verif.Props.C25
import Mathlib.Data.Nat.Size

/-!
# The numbers of signatures as RFC 4880 5.2.2 and RFC 3447 have them

Written from the two RFCs alone. `Nat.size n` is the number of bits of `n`.
-/
namespace OpenPGP

/-- RFC 3447 8.2: the length of the modulus in octets, `k`. -/
def rfcModulusOctets (n : Nat) : Nat := (n.size + 7) / 8

/-- RFC 3447 9.2, EMSA-PKCS1-v1_5: `EM = 0x00 || 0x01 || PS || 0x00 || T` in `k` octets, `T` being the prefix of the hash algorithm and the digest. -/
def rfcEncoded (T : Bytes) (k : Nat) : Bytes := 0 :: 1 :: (List.replicate (k - T.length - 3) 0xff ++ 0 :: T)

/-- RFC 3447 8.2.2: the signature `s` is good for the digest under the key `(n, e)`: it is in range, there is room for the encoded digest (`emLen ≥ tLen + 11`), and `s ^ e` is the encoded digest. -/
def RsaGood (hash : UInt8) (digest : Bytes) (n e s : Nat) : Prop :=
  ∃ d, derPrefix hash = some d ∧ s < n ∧ (d ++ digest).length + 11 ≤ rfcModulusOctets n ∧ s ^ e % n = num (rfcEncoded (d ++ digest) (rfcModulusOctets n))

/-- RFC 4880 5.2.2, FIPS 186: the number of a digest: if it is longer than `q`, as many of its leftmost bits as `q` has. -/
def rfcDsaNumber (digest : Bytes) (q : Nat) : Nat := num digest / 2 ^ (8 * digest.length - q.size)

/-- The pair `(r, s)` is a good signature of the digest. -/
def DsaGood (digest : Bytes) (p q g y r s : Nat) : Prop := DsaValid p q g y (rfcDsaNumber digest q) r s

/-- FIPS 186 4.6: `(r, s)` is the signature of the digest made with the nonce `k`, which is neither 0 nor `q` or more. -/
def DsaMade (digest : Bytes) (p q g x k r s : Nat) : Prop :=
  0 < k ∧ k < q ∧ r = g ^ k % p % q ∧ s < q ∧ k * s % q = (rfcDsaNumber digest q + x * r) % q ∧ r ≠ 0 ∧ s ≠ 0

end OpenPGP
