import Mathlib.Analysis.SpecialFunctions.Trigonometric.Basic
import Mathlib.Analysis.Complex.Exponential
import Verif.Base

/-!
Digits of `|sin k|`: the first twenty terms of the exponential series at the imaginary unit, raised to the power `k` in Gaussian
integers.
-/
namespace OpenPGP

/-- The real and the imaginary part of `19! · Σ_{m < 20} i^m / m!`, to the power `k`. -/
def sineNum : Nat → Int × Int
  | 0 => (1, 0)
  | k + 1 => ((sineNum k).1 * 65725128248453315 - (sineNum k).2 * 102360822438075317,
      (sineNum k).1 * 102360822438075317 + (sineNum k).2 * 65725128248453315)

/-- The twenty terms. -/
noncomputable def sineBase : ℂ := (65725128248453315 + 102360822438075317 * Complex.I) / 121645100408832000

theorem sineBase_sum : ∑ m ∈ Finset.range 20, Complex.I ^ m / (m.factorial : ℂ) = sineBase := by
  have h (j : Nat) : Complex.I ^ (4 * j) = 1 ∧ Complex.I ^ (4 * j + 1) = Complex.I ∧ Complex.I ^ (4 * j + 2) = -1 ∧
      Complex.I ^ (4 * j + 3) = -Complex.I := by
    have h0 : Complex.I ^ (4 * j) = 1 := by rw [pow_mul, Complex.I_pow_four, one_pow]
    refine ⟨h0, ?_, ?_, ?_⟩
    · rw [pow_succ, h0, one_mul]
    · rw [pow_add, h0, one_mul, Complex.I_sq]
    · rw [pow_add, h0, one_mul, pow_succ, Complex.I_sq, neg_one_mul]
  obtain ⟨a0, a1, a2, a3⟩ := h 0
  obtain ⟨b0, b1, b2, b3⟩ := h 1
  obtain ⟨c0, c1, c2, c3⟩ := h 2
  obtain ⟨d0, d1, d2, d3⟩ := h 3
  obtain ⟨e0, e1, e2, e3⟩ := h 4
  norm_num only at a0 a1 a2 a3 b0 b1 b2 b3 c0 c1 c2 c3 d0 d1 d2 d3 e0 e1 e2 e3
  simp only [Finset.sum_range_succ, Finset.sum_range_zero, pow_zero, pow_one, a2, a3, b0, b1, b2, b3, c0, c1, c2, c3, d0, d1, d2, d3, e0, e1, e2, e3,
    Nat.factorial, sineBase]
  push_cast
  ring

/-- The distance of the twenty terms from `e^i`. -/
theorem sineBase_close : ‖Complex.exp Complex.I - sineBase‖ ≤ 1 / 2 ^ 60 := by
  have := Complex.exp_bound (x := Complex.I) (by simp) (n := 20) (by norm_num)
  rw [sineBase_sum] at this
  refine this.trans ?_
  simp only [Complex.norm_I, Nat.factorial]
  norm_num

theorem sineBase_norm : ‖sineBase‖ ≤ 1 + 1 / 2 ^ 60 := by
  have h1 : ‖Complex.exp Complex.I‖ = 1 := by
    have := Complex.norm_exp_ofReal_mul_I 1
    simpa using this
  have := norm_sub_norm_le sineBase (Complex.exp Complex.I)
  rw [norm_sub_rev] at this
  have := sineBase_close
  linarith

theorem sineBase_pow (k : Nat) (hk : k ≤ 64) : ‖Complex.exp Complex.I ^ k - sineBase ^ k‖ ≤ 2 * k / 2 ^ 60 := by
  induction k with
  | zero => simp
  | succ k ih =>
    have ih := ih (by omega)
    have hk' : (k : ℝ) ≤ 64 := by exact_mod_cast (by omega : k ≤ 64)
    have h1 : ‖Complex.exp Complex.I‖ = 1 := by
      have := Complex.norm_exp_ofReal_mul_I 1
      simpa using this
    have e : Complex.exp Complex.I ^ (k + 1) - sineBase ^ (k + 1) =
        Complex.exp Complex.I ^ k * (Complex.exp Complex.I - sineBase) + (Complex.exp Complex.I ^ k - sineBase ^ k) * sineBase := by
      ring
    rw [e]
    refine (norm_add_le _ _).trans ?_
    rw [norm_mul, norm_mul, norm_pow, h1, one_pow, one_mul]
    have h2 : ‖Complex.exp Complex.I ^ k - sineBase ^ k‖ * ‖sineBase‖ ≤ 2 * k / 2 ^ 60 * (1 + 1 / 2 ^ 60) :=
      mul_le_mul ih sineBase_norm (norm_nonneg _) (by positivity)
    have h3 := sineBase_close
    have h4 : (0 : ℝ) ≤ k := Nat.cast_nonneg k
    push_cast
    have h5 : (2 : ℝ) * k / 2 ^ 60 * (1 + 1 / 2 ^ 60) ≤ 2 * k / 2 ^ 60 + 1 / 2 ^ 60 := by
      have : (2 : ℝ) * k / 2 ^ 60 ≤ 1 := by
        rw [div_le_one (by positivity)]
        norm_num
        linarith
      have h6 : (2 : ℝ) * k / 2 ^ 60 * (1 / 2 ^ 60) ≤ 1 * (1 / 2 ^ 60) := mul_le_mul_of_nonneg_right this (by positivity)
      linarith
    have h7 : (2 : ℝ) * (k + 1) / 2 ^ 60 = 2 * k / 2 ^ 60 + 1 / 2 ^ 60 + 1 / 2 ^ 60 := by ring
    linarith

theorem sineNum_eq (k : Nat) :
    sineBase ^ k = (((sineNum k).1 : ℂ) + ((sineNum k).2 : ℂ) * Complex.I) / 121645100408832000 ^ k := by
  induction k with
  | zero => simp [sineNum]
  | succ k ih =>
    rw [pow_succ, ih, sineNum, sineBase, div_mul_div_comm, ← pow_succ]
    push_cast
    congr 1
    linear_combination ((sineNum k).2 : ℂ) * 102360822438075317 * Complex.I_sq

theorem sine_close (k : Nat) (hk : k ≤ 64) :
    |Real.sin k - (sineNum k).2 / 121645100408832000 ^ k| ≤ 1 / 2 ^ 53 := by
  have h := (Complex.abs_im_le_norm _).trans (sineBase_pow k hk)
  rw [sineNum_eq, ← Complex.exp_nat_mul] at h
  have e1 : (Complex.exp ((k : ℂ) * Complex.I)).im = Real.sin k := by
    have := Complex.exp_ofReal_mul_I_im k
    simpa using this
  have e2 : ((((sineNum k).1 : ℂ) + ((sineNum k).2 : ℂ) * Complex.I) / 121645100408832000 ^ k).im =
      (sineNum k).2 / 121645100408832000 ^ k := by
    have : (121645100408832000 : ℂ) ^ k = ((121645100408832000 ^ k : ℝ) : ℂ) := by push_cast; rfl
    rw [this, Complex.div_ofReal_im]
    simp
  rw [Complex.sub_im, e1, e2] at h
  refine h.trans ?_
  have hk' : (k : ℝ) ≤ 64 := by exact_mod_cast hk
  rw [div_le_div_iff₀ (by positivity) (by positivity)]
  norm_num
  linarith

/-- The integer part of `2^32 · |sin k|` can be checked in integers. -/
theorem sine_floor (k t : Nat) (hk : k ≤ 64)
    (h : (t * 2 ^ 21 + 1) * 121645100408832000 ^ k ≤ (sineNum k).2.natAbs * 2 ^ 53 ∧
      (sineNum k).2.natAbs * 2 ^ 53 + 121645100408832000 ^ k < (t + 1) * 2 ^ 21 * 121645100408832000 ^ k) :
    ⌊4294967296 * |Real.sin k|⌋₊ = t := by
  have hc := sine_close k hk
  have hD : (0 : ℝ) < 121645100408832000 ^ k := by positivity
  have habs : |((sineNum k).2 : ℝ) / 121645100408832000 ^ k| = ((sineNum k).2.natAbs : ℝ) / 121645100408832000 ^ k := by
    rw [abs_div, abs_of_pos hD, Nat.cast_natAbs, Int.cast_abs]
  have h1 := abs_sub_abs_le_abs_sub (Real.sin k) ((sineNum k).2 / 121645100408832000 ^ k)
  have h2 := abs_sub_abs_le_abs_sub (((sineNum k).2 : ℝ) / 121645100408832000 ^ k) (Real.sin k)
  rw [abs_sub_comm (((sineNum k).2 : ℝ) / _)] at h2
  rw [habs] at h1 h2
  have l1 : ((t : ℝ) * 2 ^ 21 + 1) / 2 ^ 53 ≤ ((sineNum k).2.natAbs : ℝ) / 121645100408832000 ^ k := by
    rw [div_le_div_iff₀ (by positivity) hD]
    exact_mod_cast h.1
  have l2 : ((sineNum k).2.natAbs : ℝ) / 121645100408832000 ^ k + 1 / 2 ^ 53 < ((t : ℝ) + 1) * 2 ^ 21 / 2 ^ 53 := by
    rw [div_add_div _ _ (by positivity) (by positivity), div_lt_div_iff₀ (by positivity) (by positivity)]
    have : ((sineNum k).2.natAbs : ℝ) * 2 ^ 53 + 121645100408832000 ^ k < (t + 1) * 2 ^ 21 * 121645100408832000 ^ k := by
      exact_mod_cast h.2
    have h3 := mul_lt_mul_of_pos_right this (show (0 : ℝ) < 2 ^ 53 by positivity)
    calc _ = (((sineNum k).2.natAbs : ℝ) * 2 ^ 53 + 121645100408832000 ^ k) * 2 ^ 53 := by ring
      _ < _ := h3
      _ = _ := by ring
  rw [Nat.floor_eq_iff (by positivity)]
  have p : (2 : ℝ) ^ 53 = 4294967296 * 2 ^ 21 := by norm_num
  have q : (0 : ℝ) < 2 ^ 21 := by positivity
  constructor
  · have : ((t : ℝ) * 2 ^ 21 + 1) / 2 ^ 53 - 1 / 2 ^ 53 ≤ |Real.sin k| := by linarith
    have e : ((t : ℝ) * 2 ^ 21 + 1) / 2 ^ 53 - 1 / 2 ^ 53 = t / 4294967296 := by rw [p]; field_simp; ring
    rw [e, div_le_iff₀ (by norm_num)] at this
    linarith
  · have : |Real.sin k| < ((t : ℝ) + 1) * 2 ^ 21 / 2 ^ 53 := by linarith
    have e : ((t : ℝ) + 1) * 2 ^ 21 / 2 ^ 53 = (t + 1) / 4294967296 := by rw [p]; field_simp
    rw [e, lt_div_iff₀ (by norm_num)] at this
    linarith

end OpenPGP
