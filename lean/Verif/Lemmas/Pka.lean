import Verif.Model.Pka
import Mathlib.FieldTheory.Finite.Basic
import Mathlib.RingTheory.IntegralDomain
import Mathlib.Data.ZMod.Basic
import Mathlib.Data.Nat.ModEq

/-! Lemmas on modular arithmetic for `Model/Pka.lean`. -/
namespace OpenPGP

theorem powm_odd {b e m : Nat} (h : m % 2 = 1) : powm b e m = .ok (b ^ e % m) := by rw [powm, if_neg (by omega)]

theorem invert_lt {a b : Nat} (hb : 0 < b) : invert a b < b := by
  unfold invert
  split
  · have := Int.emod_lt_of_pos (Nat.gcdA a b) (by exact_mod_cast hb : (0 : Int) < b)
    have h0 := Int.emod_nonneg (Nat.gcdA a b) (by omega : (b : Int) ≠ 0)
    omega
  · exact hb

/-- With an inverse, `invert` is one. -/
theorem invert_spec {a b : Nat} (hb : 0 < b) (h : Nat.gcd a b = 1) : a * invert a b % b = 1 % b := by
  have h0 := Int.emod_nonneg (Nat.gcdA a b) (by omega : (b : Int) ≠ 0)
  have hz : ((invert a b : Nat) : Int) = Nat.gcdA a b % b := by
    rw [invert, if_pos h]; exact Int.toNat_of_nonneg h0
  have hg := Nat.gcd_eq_gcd_ab a b
  rw [h] at hg
  have : ((a * invert a b : Nat) : Int) % b = (1 : Int) % b := by
    push_cast
    rw [hz, Int.mul_emod, Int.emod_emod, ← Int.mul_emod]
    have h2 : (a : Int) * Nat.gcdA a b = 1 - b * Nat.gcdB a b := by push_cast at hg; linarith
    rw [h2, Int.sub_mul_emod_self_left]
  exact_mod_cast this

/-- And it is the only one in range. -/
theorem invert_unique {a b x : Nat} (h : a * x % b = 1 % b) (hx : x < b) : invert a b = x := by
  have hb : 0 < b := by omega
  have hc : Nat.gcd a b = 1 := by
    have h1 : a * x ≡ 1 [MOD b] := h
    exact Nat.coprime_of_mul_modEq_one x h1
  have hs : a * invert a b ≡ 1 [MOD b] := invert_spec hb hc
  have h1 : a * x ≡ 1 [MOD b] := h
  have h2 : a * invert a b ≡ a * x [MOD b] := hs.trans h1.symm
  have h3 : invert a b ≡ x [MOD b] := Nat.ModEq.cancel_left_of_coprime (by rwa [Nat.gcd_comm] at hc) h2
  have := Nat.ModEq.eq_of_lt_of_lt h3 (invert_lt hb) hx
  exact this

/-- Exponents congruent to one modulo `p - 1` fix every residue modulo a prime. -/
theorem pow_fix {p k m : Nat} (hp : p.Prime) : m ^ (k * (p - 1) + 1) ≡ m [MOD p] := by
  by_cases h : p ∣ m
  · have h0 : m ≡ 0 [MOD p] := (Nat.modEq_zero_iff_dvd).mpr h
    have := h0.pow (k * (p - 1) + 1)
    rw [Nat.zero_pow (by omega)] at this
    exact this.trans h0.symm
  · have hc : Nat.Coprime m p := (Nat.coprime_comm.mp ((Nat.Prime.coprime_iff_not_dvd hp).mpr h))
    have h1 := Nat.ModEq.pow_totient hc
    rw [Nat.totient_prime hp] at h1
    have h2 := (h1.pow k)
    rw [← Nat.pow_mul, Nat.one_pow, Nat.mul_comm] at h2
    have := h2.mul_right m
    rw [Nat.pow_succ]
    simpa using this

/-- The RSA identity. -/
theorem rsa_identity {p q e d m : Nat} (hp : p.Prime) (hq : q.Prime) (hpq : p ≠ q)
    (hed : e * d % ((p - 1) * (q - 1)) = 1 % ((p - 1) * (q - 1))) (hpos : 0 < e * d) : m ^ (e * d) ≡ m [MOD p * q] := by
  have hc : Nat.Coprime p q := (Nat.coprime_primes hp hq).mpr hpq
  obtain ⟨k, hk⟩ : ∃ k, e * d = k * ((p - 1) * (q - 1)) + 1 := by
    have h1 : 1 ≡ e * d [MOD (p - 1) * (q - 1)] := hed.symm
    have := (Nat.modEq_iff_dvd' hpos).mp h1
    obtain ⟨k, hk⟩ := this
    exact ⟨k, by rw [Nat.mul_comm k]; omega⟩
  refine (Nat.modEq_and_modEq_iff_modEq_mul hc).mp ⟨?_, ?_⟩
  · have := pow_fix (k := k * (q - 1)) (m := m) hp
    rwa [hk, show k * ((p - 1) * (q - 1)) = k * (q - 1) * (p - 1) by ring]
  · have := pow_fix (k := k * (p - 1)) (m := m) hq
    rwa [hk, show k * ((p - 1) * (q - 1)) = k * (p - 1) * (q - 1) by ring]

/-- The search for the public exponent ends: `tot * e + 1` is reached at the latest. -/
theorem rsaExponent_ok {tot : Nat} (fuel e target : Nat) (he : e % 2 = 1)
    (htar : Nat.gcd tot target = 1) (hto : target % 2 = 1) (hle : e ≤ target) (hf : (target - e) / 2 < fuel) :
    ∃ r, rsaExponent tot fuel e = .ok r ∧ Nat.gcd tot r = 1 ∧ r % 2 = 1 ∧ e ≤ r := by
  induction fuel generalizing e with
  | zero => omega
  | succ fuel ih =>
    rw [rsaExponent]
    by_cases h : Nat.gcd tot e = 1
    · rw [if_neg (by simpa using h)]; exact ⟨e, rfl, h, he, le_rfl⟩
    · rw [if_pos h]
      have : e ≠ target := by rintro rfl; exact h htar
      obtain ⟨r, h1, h2, h3, h4⟩ := ih (e + 2) (by omega) (by omega) (by omega)
      exact ⟨r, h1, h2, h3, by omega⟩

/-- In the multiplicative group of a prime field some element's `k`-th power is not one, for `0 < k < p - 1`. -/
theorem exists_pow_ne_one {p k : Nat} (hp : p.Prime) (h0 : k ≠ 0) (hk : k < p - 1) :
    ∃ a, 2 ≤ a ∧ a < p ∧ a ^ k % p ≠ 1 := by
  have := Fact.mk hp
  obtain ⟨u, hu⟩ := exists_pow_ne_one_of_isCyclic (G := (ZMod p)ˣ) (k := k) h0 (by
    rw [Nat.card_eq_fintype_card, ZMod.card_units]; exact hk)
  have hv : ((ZMod.val (u : ZMod p) : Nat) : ZMod p) = u := ZMod.natCast_zmod_val _
  have hne : (ZMod.val (u : ZMod p)) ^ k % p ≠ 1 := by
    intro h
    apply hu
    have h1 : ((ZMod.val (u : ZMod p)) ^ k : Nat) ≡ 1 [MOD p] := by
      rw [Nat.ModEq, h, Nat.mod_eq_of_lt hp.one_lt]
    have h2 := (ZMod.natCast_eq_natCast_iff _ _ _).mpr h1
    rw [Nat.cast_pow, hv, Nat.cast_one] at h2
    exact Units.ext (by simpa using h2)
  refine ⟨ZMod.val (u : ZMod p), ?_, ZMod.val_lt _, hne⟩
  by_contra hlt
  have : ZMod.val (u : ZMod p) = 0 ∨ ZMod.val (u : ZMod p) = 1 := by omega
  rcases this with h | h
  · exact u.ne_zero ((ZMod.val_eq_zero _).mp h)
  · rw [h] at hne; exact hne (by rw [Nat.one_pow, Nat.mod_eq_of_lt hp.one_lt])

end OpenPGP
