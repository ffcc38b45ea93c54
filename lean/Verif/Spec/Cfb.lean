import Verif.Model.Cfb

/-!
# Cipher feedback, as in the standards

Block `i` of the ciphertext is the plaintext block xored with the encryption of ciphertext block `i - 1` (the IV for the
first); the last block may be short. The number only bounds the recursion; the length of the text is always enough.
-/
namespace OpenPGP

/-- CFB encryption. -/
def cfbE (c : Cipher) : Nat → (iv p : Bytes) → Bytes
  | 0, _, _ => []
  | n + 1, iv, p =>
    if p = [] then []
    else
      let b := List.zipWith (· ^^^ ·) (c.enc iv) (p.take c.bs)
      b ++ cfbE c n b (p.drop c.bs)

/-- CFB decryption. -/
def cfbD (c : Cipher) : Nat → (iv ct : Bytes) → Bytes
  | 0, _, _ => []
  | n + 1, iv, ct =>
    if ct = [] then []
    else List.zipWith (· ^^^ ·) (c.enc iv) (ct.take c.bs) ++ cfbD c n (ct.take c.bs) (ct.drop c.bs)

end OpenPGP
