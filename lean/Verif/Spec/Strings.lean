import Verif.Base

/-!
# Bits and digits of octet strings, for C68
-/
namespace OpenPGP.Spec

/-- The bits of an octet string, the most significant bit of every octet first. -/
def bitsIn (s : Bytes) : List Bool := s.flatMap fun c => [c.toNat.testBit 7, c.toNat.testBit 6, c.toNat.testBit 5, c.toNat.testBit 4,
  c.toNat.testBit 3, c.toNat.testBit 2, c.toNat.testBit 1, c.toNat.testBit 0]

/-- A bit written as the character `0` or `1`. -/
def bitChar (b : Bool) : UInt8 := if b then 49 else 48

/-- The value of a digit in a base up to 16, if it is one. -/
def digitOf (base : Nat) (c : UInt8) : Option Nat :=
  if 48 ≤ c.toNat ∧ c.toNat ≤ 57 ∧ c.toNat - 48 < base then some (c.toNat - 48)
  else if 97 ≤ c.toNat ∧ c.toNat ≤ 102 ∧ c.toNat - 87 < base then some (c.toNat - 87)
  else if 65 ≤ c.toNat ∧ c.toNat ≤ 70 ∧ c.toNat - 55 < base then some (c.toNat - 55)
  else none

/-- The number written by digits: each digit has the weight of its position, counted from the end. -/
def valueOf (base : Nat) : List Nat → Nat
  | [] => 0
  | d :: ds => d * base ^ ds.length + valueOf base ds

/-- `s` is the text of `n` in a base: digits `ds` with the value `n`. -/
def Writes (base : Nat) (s : Bytes) (n : Nat) : Prop := s ≠ [] ∧ ∃ ds, s.map (digitOf base) = ds.map some ∧ valueOf base ds = n

/-- White space at neither end. -/
def Trimmed (ws : UInt8 → Bool) (s : Bytes) : Prop := (∀ c, s.head? = some c → ws c = false) ∧ ∀ c, s.getLast? = some c → ws c = false

end OpenPGP.Spec
