import Verif.Base
import Mathlib.Algebra.Polynomial.Div
import Mathlib.Algebra.Polynomial.FieldDivision
import Mathlib.Data.ZMod.Basic
import Mathlib.Algebra.Field.ZMod

/-!
# RFC 4880 section 6.1: the CRC-24 as a polynomial remainder over GF(2)
-/
namespace OpenPGP.Spec
open Polynomial

/-- Bits of an octet string, most significant bit of each octet first. -/
def bitsOf (s : Bytes) : List Bool :=
  s.flatMap fun c => (List.range 8).map fun i => c.toNat.testBit (7 - i)

/-- A bit string as a polynomial over GF(2), first bit = highest power. -/
noncomputable def bitPoly (l : List Bool) : (ZMod 2)[X] :=
  l.foldl (fun p b => p * X + (if b then 1 else 0)) 0

/-- x^24 + x^23 + x^18 + x^17 + x^14 + x^11 + x^10 + x^7 + x^6 + x^5 + x^4 + x^3 + x + 1. -/
noncomputable def crcGen : (ZMod 2)[X] :=
  X^24 + X^23 + X^18 + X^17 + X^14 + X^11 + X^10 + X^7 + X^6 + X^5 + X^4 + X^3 + X + 1

/-- The 24 bits of the initial value 0xB704CE. -/
def crcInitBits : List Bool := (List.range 24).map fun i => (0xB704CE : Nat).testBit (23 - i)

/-- The remainder the checksum has to be: `(init * x^n + message * x^24) mod generator`, with `n` the
number of message bits. -/
noncomputable def crcRemainder (s : Bytes) : (ZMod 2)[X] :=
  (bitPoly crcInitBits * X ^ (8 * s.length) + bitPoly (bitsOf s) * X ^ 24) %ₘ crcGen

end OpenPGP.Spec
