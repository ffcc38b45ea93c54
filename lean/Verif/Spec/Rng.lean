import Verif.Model.Rng
import Mathlib.Data.Nat.Digits.Defs
import Mathlib.Data.Nat.Prime.Basic

/-!
# The generator of Blum, Blum and Shub

From a seed `x` and a modulus `m` the generator makes the numbers `x^2, x^4, x^8, …` modulo `m` and gives out one bit of each: its
last bit, or the parity of the number of ones among its bits.
-/
namespace OpenPGP

/-- Is the number of ones in the binary form odd? -/
def onesOdd (n : Nat) : Bool := (Nat.digits 2 n).sum % 2 == 1

/-- Bit number `j` (from 1 on). -/
def bbsBit (m seed j : Nat) : Parity → Bool
  | .least => seed ^ 2 ^ j % m % 2 == 1
  | .even => onesOdd (seed ^ 2 ^ j % m)
  | .odd => !onesOdd (seed ^ 2 ^ j % m)

/-- The number of bits a request asks for. -/
def Request.count (r : Request) : Nat := if r.bytes then 8 * r.size else r.size

/-- The sizes that fit an `unsigned int`, in bits. -/
def Request.Fits (r : Request) : Prop := r.count < 2 ^ 32

/-- The bits a list of requests is to be answered from, behind the first `j` bits: one bit of the generator per bit asked for. -/
def bbsStream (m seed j : Nat) (rs : List Request) : List Bool :=
  ((rs.flatMap fun r => List.replicate r.count r.par).mapIdx fun i par => bbsBit m seed (j + 1 + i) par)

/-- The bits of an octet, the most significant first. -/
def octetBits (c : UInt8) : List Bool := (List.range 8).map fun i => c.toNat.testBit (7 - i)

/-- The bits of an answer, in order. -/
def Random.toBits : Random → List Bool
  | .bits l => l
  | .octets b => b.flatMap octetBits

/-- An answer has the form and the size asked for. -/
def Request.Answered (r : Request) : Random → Prop
  | .bits l => r.bytes = false ∧ l.length = r.size
  | .octets b => r.bytes = true ∧ b.length = r.size

/-- `nextprime` returns the least prime above its argument. -/
def Gmp.Real (g : Gmp) : Prop := ∀ n, (g.nextprime n).Prime ∧ n < g.nextprime n ∧ ∀ p, p.Prime → n < p → g.nextprime n ≤ p

end OpenPGP
