import Mathlib.Analysis.SpecialFunctions.Complex.Arctan
import Mathlib.Analysis.SpecificLimits.Normed
import Verif.Base

/-! The binary digits of `π`, from Machin's formula. -/
namespace OpenPGP

/-- The sum of `D / (m ^ (4 j + c) (4 j + c))`, rounded down term by term, over `2 ^ d` values of `j` from `lo`. -/
def atanSum (D m c : Nat) : Nat → Nat → Nat
  | 0, lo => D / (m ^ (4 * lo + c) * (4 * lo + c))
  | d + 1, lo => atanSum D m c d lo + atanSum D m c d (lo + 2 ^ d)

theorem atanSum_bounds (D m c : Nat) (hm : 0 < m) (hc : 0 < c) : ∀ d lo,
    (atanSum D m c d lo : ℝ) ≤ ∑ j ∈ Finset.range (2 ^ d), (D : ℝ) / ((m : ℝ) ^ (4 * (lo + j) + c) * ((4 * (lo + j) + c : ℕ) : ℝ)) ∧
    ∑ j ∈ Finset.range (2 ^ d), (D : ℝ) / ((m : ℝ) ^ (4 * (lo + j) + c) * ((4 * (lo + j) + c : ℕ) : ℝ)) ≤ atanSum D m c d lo + 2 ^ d := by
  intro d
  induction d with
  | zero =>
    intro lo
    simp only [pow_zero, Finset.range_one, Finset.sum_singleton, Nat.add_zero, atanSum]
    have e : (D : ℝ) / ((m : ℝ) ^ (4 * lo + c) * ((4 * lo + c : ℕ) : ℝ)) = ((D : ℕ) : ℝ) / ((m ^ (4 * lo + c) * (4 * lo + c) : ℕ) : ℝ) := by
      push_cast; ring
    rw [e]
    refine ⟨Nat.cast_div_le, ?_⟩
    have hp : 0 < m ^ (4 * lo + c) * (4 * lo + c) := by positivity
    have hp' : (0 : ℝ) < ((m ^ (4 * lo + c) * (4 * lo + c) : ℕ) : ℝ) := by exact_mod_cast hp
    rw [div_le_iff₀ hp']
    have := Nat.lt_div_mul_add (a := D) hp
    have h2 : D ≤ (D / (m ^ (4 * lo + c) * (4 * lo + c)) + 1) * (m ^ (4 * lo + c) * (4 * lo + c)) := by
      rw [Nat.add_mul]; omega
    exact_mod_cast h2
  | succ d ih =>
    intro lo
    obtain ⟨a1, a2⟩ := ih lo
    obtain ⟨b1, b2⟩ := ih (lo + 2 ^ d)
    rw [pow_succ, mul_two, Finset.sum_range_add]
    have e : ∀ j, lo + (2 ^ d + j) = lo + 2 ^ d + j := by intro j; omega
    simp only [e]
    rw [show (atanSum D m c (d + 1) lo : ℝ) = atanSum D m c d lo + atanSum D m c d (lo + 2 ^ d) by
      rw [atanSum, Nat.cast_add]]
    refine ⟨add_le_add a1 b1, ?_⟩
    have h3 := add_le_add a2 b2
    exact h3.trans (le_of_eq (by ring))

/-- Bounds on an arc tangent. -/
theorem atan_bounds (D m d : Nat) (hm : 1 < m) (ht : D ≤ m ^ (4 * 2 ^ d + 1)) :
    (atanSum D m 1 d 0 : ℝ) - atanSum D m 3 d 0 - 2 ^ d ≤ D * Real.arctan (m : ℝ)⁻¹ ∧
    D * Real.arctan (m : ℝ)⁻¹ ≤ (atanSum D m 1 d 0 : ℝ) - atanSum D m 3 d 0 + 2 ^ d + 1 := by
  have hmr : (1 : ℝ) < m := by exact_mod_cast hm
  have hm0 : (0 : ℝ) < m := by linarith
  have hx : ‖(m : ℝ)⁻¹‖ < 1 := by
    rw [Real.norm_of_nonneg (by positivity)]
    exact inv_lt_one_of_one_lt₀ hmr
  have hs := (Real.hasSum_arctan hx).tendsto_sum_nat
  set f : ℕ → ℝ := fun n => (m : ℝ)⁻¹ ^ (2 * n + 1) / ((2 * n + 1 : ℕ) : ℝ) with hf
  have hs' : Filter.Tendsto (fun n => ∑ i ∈ Finset.range n, (-1 : ℝ) ^ i * f i) Filter.atTop (nhds (Real.arctan (m : ℝ)⁻¹)) := by
    simpa only [hf, mul_div_assoc] using hs
  have ha : Antitone f := by
    apply antitone_nat_of_succ_le
    intro n
    simp only [hf]
    apply div_le_div₀ (by positivity)
    · apply pow_le_pow_of_le_one (by positivity) (inv_le_one_of_one_le₀ hmr.le) (by omega)
    · positivity
    · exact_mod_cast (by omega : 2 * n + 1 ≤ 2 * (n + 1) + 1)
  have l1 := ha.alternating_series_le_tendsto hs' (2 ^ d)
  have l2 := ha.tendsto_le_alternating_series hs' (2 ^ d)
  rw [Finset.sum_range_succ] at l2
  have pair : ∀ n, ∑ i ∈ Finset.range (2 * n), (-1 : ℝ) ^ i * f i = ∑ j ∈ Finset.range n, f (2 * j) - ∑ j ∈ Finset.range n, f (2 * j + 1) := by
    intro n
    induction n with
    | zero => simp
    | succ n ih =>
      rw [show 2 * (n + 1) = 2 * n + 1 + 1 by ring, Finset.sum_range_succ, Finset.sum_range_succ, ih, Finset.sum_range_succ,
        Finset.sum_range_succ, pow_succ, pow_mul]
      norm_num
      ring
  rw [pair] at l1 l2
  have hterm : ∀ n, (D : ℝ) * f n = (D : ℝ) / ((m : ℝ) ^ (2 * n + 1) * ((2 * n + 1 : ℕ) : ℝ)) := by
    intro n
    simp only [hf, inv_pow]
    field_simp
  obtain ⟨p1, p2⟩ := atanSum_bounds D m 1 (by omega) (by omega) d 0
  obtain ⟨n1, n2⟩ := atanSum_bounds D m 3 (by omega) (by omega) d 0
  have ep : ∑ j ∈ Finset.range (2 ^ d), (D : ℝ) / ((m : ℝ) ^ (4 * (0 + j) + 1) * ((4 * (0 + j) + 1 : ℕ) : ℝ)) =
      D * ∑ j ∈ Finset.range (2 ^ d), f (2 * j) := by
    rw [Finset.mul_sum]
    apply Finset.sum_congr rfl
    intro j _
    rw [hterm, show 4 * (0 + j) + 1 = 2 * (2 * j) + 1 by ring]
  have en : ∑ j ∈ Finset.range (2 ^ d), (D : ℝ) / ((m : ℝ) ^ (4 * (0 + j) + 3) * ((4 * (0 + j) + 3 : ℕ) : ℝ)) =
      D * ∑ j ∈ Finset.range (2 ^ d), f (2 * j + 1) := by
    rw [Finset.mul_sum]
    apply Finset.sum_congr rfl
    intro j _
    rw [hterm, show 4 * (0 + j) + 3 = 2 * (2 * j + 1) + 1 by ring]
  rw [ep] at p1 p2
  rw [en] at n1 n2
  have last : (D : ℝ) * ((-1) ^ (2 * 2 ^ d) * f (2 * 2 ^ d)) ≤ 1 := by
    rw [pow_mul, neg_one_sq, one_pow, one_mul, hterm, show 2 * (2 * 2 ^ d) + 1 = 4 * 2 ^ d + 1 by ring,
      div_le_one (by positivity)]
    have : D ≤ m ^ (4 * 2 ^ d + 1) * (4 * 2 ^ d + 1) := le_trans ht (Nat.le_mul_of_pos_right _ (by omega))
    exact_mod_cast this
  have hD : (0 : ℝ) ≤ D := Nat.cast_nonneg D
  have q1 := mul_le_mul_of_nonneg_left l1 hD
  have q2 := mul_le_mul_of_nonneg_left l2 hD
  rw [mul_add] at q2
  rw [mul_sub] at q1 q2
  constructor <;> linarith

/-- When `N` is `⌊π 2 ^ n⌋`: with `g` guard bits and enough terms. -/
theorem pi_floor (n g d e N : Nat)
    (h5 : 2 ^ (n + g) ≤ 5 ^ (4 * 2 ^ d + 1)) (h239 : 2 ^ (n + g) ≤ 239 ^ (4 * 2 ^ e + 1))
    (lo : N * 2 ^ g + 16 * (atanSum (2 ^ (n + g)) 5 3 d 0 + 2 ^ d) + 4 * (atanSum (2 ^ (n + g)) 239 1 e 0 + 2 ^ e + 1) ≤
      16 * atanSum (2 ^ (n + g)) 5 1 d 0 + 4 * atanSum (2 ^ (n + g)) 239 3 e 0)
    (hi : 16 * (atanSum (2 ^ (n + g)) 5 1 d 0 + 2 ^ d + 1) + 4 * (atanSum (2 ^ (n + g)) 239 3 e 0 + 2 ^ e) <
      (N + 1) * 2 ^ g + 16 * atanSum (2 ^ (n + g)) 5 3 d 0 + 4 * atanSum (2 ^ (n + g)) 239 1 e 0) :
    ⌊Real.pi * 2 ^ n⌋₊ = N := by
  obtain ⟨a1, a2⟩ := atan_bounds (2 ^ (n + g)) 5 d (by norm_num) h5
  obtain ⟨b1, b2⟩ := atan_bounds (2 ^ (n + g)) 239 e (by norm_num) h239
  generalize atanSum (2 ^ (n + g)) 5 1 d 0 = A1 at *
  generalize atanSum (2 ^ (n + g)) 5 3 d 0 = A3 at *
  generalize atanSum (2 ^ (n + g)) 239 1 e 0 = B1 at *
  generalize atanSum (2 ^ (n + g)) 239 3 e 0 = B3 at *
  have mach := Real.four_mul_arctan_inv_5_sub_arctan_inv_239
  have hpi : Real.pi * 2 ^ n * 2 ^ g = 16 * (((2 ^ (n + g) : ℕ) : ℝ) * Real.arctan ((5 : ℕ) : ℝ)⁻¹) -
      4 * (((2 ^ (n + g) : ℕ) : ℝ) * Real.arctan ((239 : ℕ) : ℝ)⁻¹) := by
    have : Real.pi = 16 * Real.arctan 5⁻¹ - 4 * Real.arctan 239⁻¹ := by linarith
    rw [this]
    push_cast
    rw [pow_add]
    ring
  have lo' : ((N : ℝ)) * 2 ^ g + 16 * (A3 + 2 ^ d) + 4 * (B1 + 2 ^ e + 1) ≤ 16 * A1 + 4 * B3 := by exact_mod_cast lo
  have hi' : (16 : ℝ) * (A1 + 2 ^ d + 1) + 4 * (B3 + 2 ^ e) < (N + 1) * 2 ^ g + 16 * A3 + 4 * B1 := by exact_mod_cast hi
  have hg : (0 : ℝ) < 2 ^ g := by positivity
  rw [Nat.floor_eq_iff (by positivity)]
  constructor
  · apply le_of_mul_le_mul_right _ hg
    rw [hpi]
    linarith
  · apply lt_of_mul_lt_mul_right _ hg.le
    rw [hpi]
    linarith

end OpenPGP
