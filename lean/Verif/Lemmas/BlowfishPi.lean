import Mathlib.Algebra.Order.Floor.Semifield
import Verif.Lemmas.PiDigits
import Verif.Spec.Blowfish
import Verif.Model.Blowfish

/-! The tables of `Blowfish_Const.h` are the digits of `π`. -/
namespace OpenPGP

/-- `3` and the numbers of the two tables, one after the other. -/
def bfPiDigits : Nat := 3 * 2 ^ 33344 + bfPT * 2 ^ 32768 + bfST

theorem bfPi_floor : ⌊Real.pi * 2 ^ 33344⌋₊ = bfPiDigits := by
  refine pi_floor 33344 64 12 11 bfPiDigits ?_ ?_ ?_ ?_ <;> decide +kernel

theorem piWord_eq (i : Nat) (h : i < 1042) : Std.Blowfish.piWord i = BitVec.ofNat 32 (bfPiDigits / 2 ^ (32 * (1041 - i))) := by
  have e : Real.pi * 2 ^ (32 * (i + 1)) = Real.pi * 2 ^ 33344 / ((2 ^ (32 * (1041 - i)) : ℕ) : ℝ) := by
    rw [eq_div_iff (by positivity), mul_assoc]
    push_cast
    rw [← pow_add, show 32 * (i + 1) + 32 * (1041 - i) = 33344 by omega]
  rw [Std.Blowfish.piWord, e, Nat.floor_div_natCast, bfPi_floor]

theorem bfTables_pi : (∀ i, i < 18 → bfP.getD i 0 = Std.Blowfish.piWord i) ∧
    ∀ k b, k < 4 → b < 256 → bfSBox.getD (512 * k + b) 0 = Std.Blowfish.piWord (18 + 256 * k + b) := by
  constructor
  · intro i h
    rw [piWord_eq i (by omega), bfP]
    rw [List.getD_eq_getElem?_getD, List.getElem?_map, List.getElem?_range h]
    have : ∀ i, i < 18 → tab 32 bfPT 18 i = BitVec.ofNat 32 (bfPiDigits / 2 ^ (32 * (1041 - i))) := by decide +kernel
    exact this i h
  · intro k b hk hb
    rw [piWord_eq _ (by omega), bfSBox]
    rw [List.getD_eq_getElem?_getD, List.getElem?_map, List.getElem?_range (by omega)]
    simp only [Option.map_some, Option.getD_some]
    rw [show (512 * k + b) % 512 = b by omega, show (512 * k + b) / 512 = k by omega, if_pos hb]
    have : ∀ j, j < 1024 → tab 32 bfST 1024 j = BitVec.ofNat 32 (bfPiDigits / 2 ^ (32 * (1041 - (18 + j)))) := by decide +kernel
    rw [this (256 * k + b) (by omega), Nat.add_assoc]

end OpenPGP
