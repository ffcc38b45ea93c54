import Verif.Model.OpenSsl
import Verif.Spec.Hash

/-!
# What OpenSSL's documentation says, and what is asked of the library's use of it
-/
namespace OpenPGP

/-- RAND_bytes(3): a call that returns 1 has put `num` octets into `buf`. -/
def SslRand.Documented (lib : SslRand) : Prop := ∀ seeds i n b, lib.call seeds i n = some b → b.length = n

/-- The function a family computes. -/
noncomputable def SslFamily.standard : SslFamily → Bytes → Bytes
  | .md5 => Std.md5
  | .sha1 => Std.sha1
  | .ripemd160 => Std.ripemd160
  | .sha224 => Std.sha224
  | .sha256 => Std.sha256
  | .sha384 => Std.sha384
  | .sha512 => Std.sha512

/-- MD5(3), SHA256_Init(3), RIPEMD160(3): after `X_Init`, `X_Update` can be called repeatedly with chunks of the message; `X_Final` gives the message digest and erases the
context. -/
structure SslHashes.Documented {C : Type} (lib : SslHashes C) (erased : C) : Prop where
  digest : ∀ f (chunks : List Bytes), (lib.final f (chunks.foldl (lib.update f) (lib.init f))).1 = f.standard chunks.flatten
  erases : ∀ f c, (lib.final f c).2 = erased

/-- The block sizes of RFC 1321, FIPS 180-4 and RIPEMD-160, in bits. -/
def standardBlock (alg : UInt8) : Option Nat :=
  if alg = 1 ∨ alg = 2 ∨ alg = 3 ∨ alg = 8 ∨ alg = 11 then some 512
  else if alg = 9 ∨ alg = 10 then some 1024
  else none

/-- Octets `b` in a form that was asked for: as they are, or the first `n` bits of them as characters 0 and 1, the most significant first. -/
def SslCall.MadeFrom : SslCall → Bytes → Bytes → Prop
  | .seeded _, _, _ => False
  | .octets n _ _, b, r => b.length = n ∧ r = b
  | .bits n _ _, b, r => r.length = n ∧ ∃ rest, b.flatMap (fun c => (List.range 8).map fun i => if c.toNat.testBit (7 - i) then (49 : UInt8) else 48) = r ++ rest

end OpenPGP
