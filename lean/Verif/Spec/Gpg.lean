import Verif.Base
import Verif.Lemmas.Mpi

/-!
# Elliptic-curve keys as RFC 6637 has them (and the draft for Ed25519)

RFC 6637, 9 and 11; draft-koch-eddsa-for-openpgp, 4. A public key packet holds the version 4, the time, the algorithm (18 ECDH, 19 ECDSA, 22
EdDSA), the object identifier of the curve behind an octet with its length, the point as an MPI and, for ECDH, the key derivation
parameters: the octets 3 and 1, the hash algorithm and the cipher.
-/
namespace OpenPGP.Rfc6637

/-- One arc of an object identifier in base 128, most significant digit first, all octets but the last with the high bit (X.690, 8.19.2). -/
def arc (fuel n : Nat) (last : Bool) : Bytes :=
  match fuel with
  | 0 => []
  | fuel + 1 => (if n < 128 then [] else arc fuel (n / 128) false) ++ [UInt8.ofNat (n % 128 + if last then 0 else 128)]

/-- The contents octets of an object identifier (X.690, 8.19): the first two arcs make one number. -/
def oid : List Nat → Bytes
  | a :: b :: rest => arc 10 (40 * a + b) true ++ rest.flatMap fun n => arc 10 n true
  | _ => []

/-- The curves of RFC 6637, 11 and of the draft, with the ones GnuPG adds: NIST P-256, P-384, P-521, brainpoolP256r1, brainpoolP512r1, Ed25519,
Curve25519. -/
def curves : List (List Nat) :=
  [[1, 2, 840, 10045, 3, 1, 7], [1, 3, 132, 0, 34], [1, 3, 132, 0, 35], [1, 3, 36, 3, 3, 2, 8, 1, 1, 7], [1, 3, 36, 3, 3, 2, 8, 1, 1, 13],
   [1, 3, 6, 1, 4, 1, 11591, 15, 1], [1, 3, 6, 1, 4, 1, 3029, 1, 5, 1]]

/-- The algorithms; ECDH comes with the hash and the cipher of its key derivation. -/
inductive Alg where
  | ecdh (hash cipher : UInt8)
  | ecdsa
  | eddsa
  deriving DecidableEq, Repr

def Alg.id : Alg → UInt8
  | .ecdh .. => 18
  | .ecdsa => 19
  | .eddsa => 22

def Alg.kdf : Alg → Bytes
  | .ecdh h c => [3, 1, h, c]
  | _ => []

/-- A key. -/
structure EcKey where
  time : Nat
  alg : Alg
  curve : Bytes
  point : Nat

/-- The body of its packet. -/
def EcKey.body (k : EcKey) : Bytes :=
  [4] ++ (be 4 k.time ++ ([k.alg.id] ++ ([UInt8.ofNat k.curve.length] ++ (k.curve ++ (mpiOctets k.point ++ k.alg.kdf)))))

/-- What fits into the fields: a time of 32 bits, an identifier whose length fits into an octet (0 and 255 are reserved) and a point the reader of MPIs
takes (C04). -/
structure EcKey.Fits (k : EcKey) : Prop where
  time : k.time < 2 ^ 32
  curve : 0 < k.curve.length ∧ k.curve.length < 255
  point : bitsize k.point ≤ 65528

/-- The body of a session key packet for ECDH (RFC 6637, 8 and 10): version 3, the recipient's key ID, the algorithm, the ephemeral point as an MPI, and the wrapped key behind
an octet with its length. -/
def sessionBody (keyid : Bytes) (point : Nat) (wrapped : Bytes) : Bytes :=
  [3] ++ keyid ++ [18] ++ mpiOctets point ++ ([UInt8.ofNat wrapped.length] ++ wrapped)

/-- The sizes, in bits, of primary keys that may be asked for, by algorithm: RSA, DSA, and on curves. -/
def PrimarySize (a : UInt8) (n : Nat) : Prop :=
  (a = 1 ∨ a = 3) ∧ 1024 ≤ n ∧ n ≤ 4096 ∧ 32 ∣ n ∨ a = 17 ∧ 1024 ≤ n ∧ n ≤ 3072 ∧ 64 ∣ n ∨ (a = 19 ∨ a = 22) ∧ 160 ≤ n ∧ n ≤ 1024

/-- The sizes of subkeys: RSA, DSA and ElGamal, and, where that of the primary key counts, on curves. -/
def SubkeySize (primary : Nat) (a : UInt8) (n : Nat) : Prop :=
  (a = 1 ∨ a = 2 ∨ a = 3) ∧ 1024 ≤ n ∧ n ≤ 4096 ∧ 32 ∣ n ∨ (a = 16 ∨ a = 17) ∧ 1024 ≤ n ∧ n ≤ 3072 ∧ 64 ∣ n ∨
    (a = 18 ∨ a = 19 ∨ a = 22) ∧ 160 ≤ primary ∧ primary ≤ 1024

end OpenPGP.Rfc6637
