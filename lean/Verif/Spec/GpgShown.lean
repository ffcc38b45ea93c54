import Verif.Spec.Gpg
import Verif.Model.Show

/-!
# Elliptic-curve keys in words

The names of the curves (RFC 6637, 11; GnuPG for the others) and the lines a reader of `show` expects of a key.
-/
namespace OpenPGP.Rfc6637

/-- The names of the curves, by their object identifiers. -/
def curveCalled : List (List Nat × String) :=
  [([1, 2, 840, 10045, 3, 1, 7], "NIST P-256"), ([1, 3, 132, 0, 34], "NIST P-384"), ([1, 3, 132, 0, 35], "NIST P-521"),
   ([1, 3, 36, 3, 3, 2, 8, 1, 1, 7], "brainpoolP256r1"), ([1, 3, 36, 3, 3, 2, 8, 1, 1, 13], "brainpoolP512r1"), ([1, 3, 6, 1, 4, 1, 11591, 15, 1], "Ed25519"),
   ([1, 3, 6, 1, 4, 1, 3029, 1, 5, 1], "Curve25519")]

def Alg.called : Alg → String
  | .ecdh .. => "ECDH"
  | .ecdsa => "ECDSA"
  | .eddsa => "EdDSA"

/-- What is said of a key on a curve with that name. -/
def EcKey.lines (time : Nat → Bytes) (k : EcKey) (curve : String) : List Bytes :=
  [ascii "Version: 4 - New", ascii "Creation Time: " ++ time k.time,
   ascii ("Public Key Algorithm: " ++ k.alg.called ++ " (pka ") ++ dec k.alg.id.toNat ++ ascii ")",
   ascii (k.alg.called ++ " " ++ curve), ascii (k.alg.called ++ " ec point: ") ++ mpitohex k.point]

end OpenPGP.Rfc6637
