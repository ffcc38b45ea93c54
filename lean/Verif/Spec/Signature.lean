import Verif.Props.C19
import Verif.Props.C25

/-!
# When a signature is good

RFC 4880 5.2.2, RFC 3447 8.2 and FIPS 186, on numbers. `digest` is the hash of what was signed.
-/
namespace OpenPGP.Rfc

/-- EMSA-PKCS1-v1_5 (RFC 3447 9.2) in `k` octets. -/
def encodedDigest (der digest : Bytes) (k : Nat) : Bytes :=
  [0, 1] ++ List.replicate (k - 3 - der.length - digest.length) 0xff ++ [0] ++ der ++ digest

/-- RSA: the power of the signature is the encoded digest. The number of octets is that of the modulus, rounded down (RFC 3447 rounds up: C78). -/
def RsaHolds (hash : UInt8) (digest : Bytes) (pub sig : List Nat) : Prop :=
  ∃ n e s der, pub[0]? = some n ∧ pub[1]? = some e ∧ sig[0]? = some s ∧ derPrefix hash = some der ∧ n % 2 = 1 ∧
    der.length + 3 + digest.length ≤ (n.log2 + 1) / 8 ∧ s ^ e % n = num (encodedDigest der digest ((n.log2 + 1) / 8))

/-- DSA: the congruence of FIPS 186 with the inverse `w` of `s`. Unlike FIPS 186 this does not ask for `0 < s < q`; for an `s` without
inverse `w` is zero (C25). -/
def DsaHolds (digest : Bytes) (pub sig : List Nat) : Prop :=
  ∃ p q g y r s w, pub[0]? = some p ∧ pub[1]? = some q ∧ pub[2]? = some g ∧ pub[3]? = some y ∧ sig[0]? = some r ∧ sig[1]? = some s ∧
    p % 2 = 1 ∧ 0 < r ∧ r < q ∧ w < q ∧ (Nat.gcd s q = 1 → s * w % q = 1 % q) ∧ (Nat.gcd s q ≠ 1 → w = 0) ∧
    g ^ (num digest * w % q) * y ^ (r * w % q) % p % q = r

/-- The public-key equation of the algorithm the signature names. -/
def SignatureHolds (hash pka : UInt8) (digest : Bytes) (pub sig : List Nat) : Prop :=
  ((pka = 1 ∨ pka = 3) ∧ RsaHolds hash digest pub sig) ∨ (pka = 17 ∧ DsaHolds digest pub sig)

end OpenPGP.Rfc
