import Verif.Model.Hashes

/-!
# Block cipher objects (`src/Encryptions/SymAlg.cpp`, `include/Encryptions/SymAlg.h`)

The classes of `src/Encryptions` are modelled one by one (`Aes`, `Des`, `Idea`, `Blowfish`, `Cast128`, `Twofish`,
`Camellia`) as objects: `encrypt` and `decrypt` are not `const` members, so each returns the object after the call
together with what the call returned or threw.

Rotations use `ror`/`rol` of `Verif.Model.Hashes` (`cryptomath.h`).  `ROL(x, 0, 32)` evaluates `x >> 32` on a
32-bit operand, which C++ leaves undefined; the model takes 0 for it, and the rotation yields `x`
(so it does if the shift leaves `x` unchanged, as x86 does, because the two halves are or-ed: `rol_zero_either`).
-/
namespace OpenPGP

/-- A block cipher class. -/
structure SymCipher (S : Type) where
  /-- `blocksize()`, in bits -/
  blocksize : Nat
  /-- the default constructor -/
  fresh : S
  setkey : S → Bytes → Out S
  encrypt : S → Bytes → S × Out Bytes
  decrypt : S → Bytes → S × Out Bytes

/-- The constructor taking a key (for instance AES.cpp:122-126). -/
def SymCipher.make {S : Type} (c : SymCipher S) (key : Bytes) : Out S := c.setkey c.fresh key

/-- One call on a cipher object. -/
inductive CipherCall where
  | encrypt (b : Bytes)
  | decrypt (b : Bytes)
  deriving DecidableEq

/-- One call: the object afterwards and what the caller sees. -/
def SymCipher.call {S : Type} (c : SymCipher S) (o : S) : CipherCall → S × Out Bytes
  | .encrypt b => c.encrypt o b
  | .decrypt b => c.decrypt o b

/-- A history of calls on one object; a caller may catch an exception and go on. -/
def SymCipher.run {S : Type} (c : SymCipher S) : List CipherCall → S → List (Out Bytes)
  | [], _ => []
  | k :: ks, o => (c.call o k).2 :: c.run ks (c.call o k).1

/-- A constant array `uintW_t T[n]` kept as one number, its first element most significant. -/
def tab (w : Nat) (t n i : Nat) : BitVec w := BitVec.ofNat w (t >>> (w * (n - 1 - i)))

/-- A `std::vector <uint32_t>` of four words. -/
structure Quad where
  a : BitVec 32
  b : BitVec 32
  c : BitVec 32
  d : BitVec 32
  deriving DecidableEq

/-- The same change made to each word (`for (x = 0; x < 4; x++) data[x] = …`). -/
def Quad.map (f : BitVec 32 → BitVec 32) (q : Quad) : Quad := ⟨f q.a, f q.b, f q.c, f q.d⟩

/-- `for (x = 0; x < 4; x++) data[x] ^= key[x];` (for instance AES.cpp:201-203). -/
def Quad.xor (q k : Quad) : Quad := ⟨q.a ^^^ k.a, q.b ^^^ k.b, q.c ^^^ k.c, q.d ^^^ k.d⟩

end OpenPGP
