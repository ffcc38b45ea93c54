import Verif.Model.Crc24
import Verif.Spec.Crc24
import Mathlib.RingTheory.Ideal.Quotient.Basic
import Mathlib.RingTheory.Polynomial.Basic
import Mathlib.Algebra.CharP.Two
import Mathlib.RingTheory.Coprime.Lemmas

namespace OpenPGP
open Polynomial Spec

/-- A register as a polynomial (bit `i` is the coefficient of `x^i`). -/
noncomputable def regPoly (r : BitVec 32) : (ZMod 2)[X] :=
  ∑ i ∈ Finset.range 32, (if r.getLsbD i then X ^ i else 0)

theorem regPoly_xor (a b : BitVec 32) : regPoly (a ^^^ b) = regPoly a + regPoly b := by
  unfold regPoly
  rw [← Finset.sum_add_distrib]
  apply Finset.sum_congr rfl
  intro i _
  rw [BitVec.getLsbD_xor]
  cases a.getLsbD i <;> cases b.getLsbD i <;> simp
  exact (CharTwo.add_self_eq_zero _).symm

theorem regPoly_shl (a : BitVec 32) (h : a.getLsbD 31 = false) : regPoly (a <<< 1) = X * regPoly a := by
  unfold regPoly
  rw [Finset.sum_range_succ', Finset.sum_range_succ _ 31, h, mul_add, Finset.mul_sum]
  simp only [BitVec.getLsbD_shiftLeft]
  simp
  apply Finset.sum_congr rfl
  intro i hi
  have : i < 31 := Finset.mem_range.mp hi
  have h2 : i + 1 < 32 := by omega
  by_cases hb : a.getLsbD i = true
  · simp [h2, hb]; ring
  · simp [h2, hb]

/-- Only the low 24 bits are set. -/
def low24 (r : BitVec 32) : Prop := ∀ i, 24 ≤ i → r.getLsbD i = false

theorem poly_bits_high (i : Nat) (h : 25 ≤ i) : (0x1864CFB#32).getLsbD i = false := by
  by_cases h2 : i < 32
  · have : ∀ i : Fin 32, 25 ≤ i.val → (0x1864CFB#32).getLsbD i.val = false := by decide
    exact this ⟨i, h2⟩ h
  · exact BitVec.getLsbD_of_ge _ _ (by omega)

theorem and_bit24 (r : BitVec 32) : (r &&& 0x1000000#32 ≠ 0#32) ↔ r.getLsbD 24 = true := by
  constructor
  · intro h
    by_contra hc
    apply h
    apply BitVec.eq_of_getLsbD_eq
    intro i hi
    rw [BitVec.getLsbD_and, BitVec.getLsbD_zero]
    by_cases h24 : i = 24
    · subst h24; rw [Bool.not_eq_true] at hc; rw [hc]; rfl
    · have : ∀ i : Fin 32, i.val ≠ 24 → (0x1000000#32).getLsbD i.val = false := by decide
      rw [this ⟨i, hi⟩ h24]; simp
  · intro h hc
    have := congrArg (fun v => BitVec.getLsbD v 24) hc
    simp only [BitVec.getLsbD_and, h] at this
    exact absurd this (by decide)

theorem crcBit_low24 (r : BitVec 32) (h : low24 r) : low24 (crcBit r) := by
  intro i hi
  unfold crcBit
  simp only
  by_cases hb : (r <<< 1).getLsbD 24 = true
  · rw [if_pos ((and_bit24 _).mpr hb), BitVec.getLsbD_xor]
    by_cases h24 : i = 24
    · subst h24; rw [hb]; decide
    · rw [poly_bits_high i (by omega), BitVec.getLsbD_shiftLeft, h (i - 1) (by omega)]; simp
  · rw [if_neg (fun hc => hb ((and_bit24 _).mp hc))]
    by_cases h24 : i = 24
    · subst h24; simpa using hb
    · rw [BitVec.getLsbD_shiftLeft, h (i - 1) (by omega)]; simp

theorem regPoly_gen : regPoly 0x1864CFB#32 = crcGen := by
  unfold regPoly crcGen
  simp only [Finset.sum_range_succ, Finset.sum_range_zero]
  simp [BitVec.getLsbD]
  simp [Nat.testBit, Nat.shiftRight_eq_div_pow]
  ring

/-- Reduction modulo the generator. -/
noncomputable abbrev φ : (ZMod 2)[X] →+* (ZMod 2)[X] ⧸ Ideal.span {crcGen} := Ideal.Quotient.mk _

theorem φ_gen : φ crcGen = 0 :=
  Ideal.Quotient.eq_zero_iff_mem.mpr (Ideal.mem_span_singleton_self _)

theorem φ_eq {a b : (ZMod 2)[X]} : φ a = φ b ↔ crcGen ∣ a - b := by
  rw [Ideal.Quotient.mk_eq_mk_iff_sub_mem, Ideal.mem_span_singleton]

theorem φ_crcBit (r : BitVec 32) (h : low24 r) : φ (regPoly (crcBit r)) = φ X * φ (regPoly r) := by
  have hs := regPoly_shl r (h 31 (by omega))
  unfold crcBit
  simp only
  split
  · rw [regPoly_xor, hs, regPoly_gen, map_add, φ_gen, map_mul, add_zero]
  · rw [hs, map_mul]

theorem bitPoly_foldl (l : List Bool) (p : (ZMod 2)[X]) :
    l.foldl (fun p b => p * X + (if b then 1 else 0)) p = p * X ^ l.length + bitPoly l := by
  induction l generalizing p with
  | nil => simp [bitPoly]
  | cons b l ih =>
    simp only [List.foldl_cons, bitPoly, List.length_cons]
    rw [ih, ih (0 * X + _)]
    ring

theorem bitPoly_append (a b : List Bool) : bitPoly (a ++ b) = bitPoly a * X ^ b.length + bitPoly b := by
  rw [bitPoly, List.foldl_append, bitPoly_foldl]; rfl

theorem regPoly_byte (c : UInt8) :
    regPoly (BitVec.ofNat 32 c.toNat <<< 16) = bitPoly (bitsOf [c]) * X ^ 16 := by
  have hc := c.toNat_lt
  have h8 : ∀ i, 8 ≤ i → c.toNat.testBit i = false := fun i hi =>
    Nat.testBit_lt_two_pow (lt_of_lt_of_le hc (Nat.pow_le_pow_right (by omega) hi : 2 ^ 8 ≤ 2 ^ i))
  unfold regPoly
  simp only [Finset.sum_range_succ, Finset.sum_range_zero, BitVec.getLsbD_shiftLeft,
    BitVec.getLsbD_ofNat, bitPoly, bitsOf]
  simp [List.range_succ, h8]
  split_ifs <;> ring

theorem bitsOf_cons (c : UInt8) (s : Bytes) : bitsOf (c :: s) = bitsOf [c] ++ bitsOf s := by
  simp [bitsOf]

theorem bitsOf_length (s : Bytes) : (bitsOf s).length = 8 * s.length := by
  induction s with
  | nil => rfl
  | cons c s ih => rw [bitsOf_cons, List.length_append, ih]; simp [bitsOf]; ring

theorem low24_byte (r : BitVec 32) (c : UInt8) (h : low24 r) :
    low24 (r ^^^ (BitVec.ofNat 32 c.toNat <<< 16)) := by
  intro i hi
  have hc := c.toNat_lt
  rw [BitVec.getLsbD_xor, h i hi, BitVec.getLsbD_shiftLeft, BitVec.getLsbD_ofNat,
    Nat.testBit_lt_two_pow (lt_of_lt_of_le hc (Nat.pow_le_pow_right (by omega) (by omega) : 2 ^ 8 ≤ 2 ^ (i - 16)))]
  simp

theorem crcByte_spec (r : BitVec 32) (c : UInt8) (h : low24 r) :
    low24 (crcByte r c) ∧
    φ (regPoly (crcByte r c)) = φ (regPoly r) * φ X ^ 8 + φ (bitPoly (bitsOf [c])) * φ X ^ 24 := by
  have h0 := low24_byte r c h
  have h1 := crcBit_low24 _ h0
  have h2 := crcBit_low24 _ h1
  have h3 := crcBit_low24 _ h2
  have h4 := crcBit_low24 _ h3
  have h5 := crcBit_low24 _ h4
  have h6 := crcBit_low24 _ h5
  have h7 := crcBit_low24 _ h6
  refine ⟨crcBit_low24 _ h7, ?_⟩
  unfold crcByte
  simp only
  rw [φ_crcBit _ h7, φ_crcBit _ h6, φ_crcBit _ h5, φ_crcBit _ h4, φ_crcBit _ h3, φ_crcBit _ h2,
    φ_crcBit _ h1, φ_crcBit _ h0, regPoly_xor, regPoly_byte, map_add, map_mul, map_pow]
  ring

theorem crcFold_spec (s : Bytes) (r : BitVec 32) (h : low24 r) :
    low24 (s.foldl crcByte r) ∧
    φ (regPoly (s.foldl crcByte r)) =
      φ (regPoly r) * φ X ^ (8 * s.length) + φ (bitPoly (bitsOf s)) * φ X ^ 24 := by
  induction s generalizing r with
  | nil => simp [bitsOf, bitPoly, h]
  | cons c s ih =>
    obtain ⟨hl, hp⟩ := crcByte_spec r c h
    obtain ⟨hl2, hp2⟩ := ih _ hl
    refine ⟨hl2, ?_⟩
    have e := bitsOf_cons c s
    rw [List.foldl_cons, hp2, hp, e, bitPoly_append, bitsOf_length s, map_add, map_mul, map_pow,
      List.length_cons]
    ring

theorem low24_mask (r : BitVec 32) (h : low24 r) : r &&& 0xFFFFFF#32 = r := by
  apply BitVec.eq_of_getLsbD_eq
  intro i hi
  rw [BitVec.getLsbD_and]
  by_cases h24 : i < 24
  · have : ∀ i : Fin 24, (0xFFFFFF#32).getLsbD i.val = true := by decide
    rw [this ⟨i, h24⟩]; simp
  · rw [h i (by omega)]; simp

theorem low24_init : low24 0xB704CE#32 := by
  intro i hi
  by_cases h2 : i < 32
  · have : ∀ i : Fin 32, 24 ≤ i.val → (0xB704CE#32).getLsbD i.val = false := by decide
    exact this ⟨i, h2⟩ hi
  · exact BitVec.getLsbD_of_ge _ _ (by omega)

/-- The 24 low bits of a register, highest first. -/
def bits24 (r : BitVec 32) : List Bool := (List.range 24).map fun i => r.getLsbD (23 - i)

theorem bitPoly_bits24 (r : BitVec 32) (h : low24 r) : bitPoly (bits24 r) = regPoly r := by
  unfold regPoly
  have hs : ∑ i ∈ Finset.range 32, (if r.getLsbD i then (X : (ZMod 2)[X]) ^ i else 0)
      = ∑ i ∈ Finset.range 24, (if r.getLsbD i then (X : (ZMod 2)[X]) ^ i else 0) := by
    symm
    apply Finset.sum_subset
    · intro i hi; simp only [Finset.mem_range] at *; omega
    · intro i _ hi
      rw [h i (by simpa using hi)]; simp
  rw [hs]
  · simp only [Finset.sum_range_succ, Finset.sum_range_zero, bits24, bitPoly]
    simp only [List.range_succ, List.range_zero, List.map_append, List.map_cons, List.map_nil,
      List.foldl_append, List.foldl_cons, List.foldl_nil, List.nil_append]
    have e : ∀ (b : Bool) (n : Nat), (if b then (X : (ZMod 2)[X]) ^ n else 0) = (if b then 1 else 0) * X ^ n := by
      intro b n; cases b <;> simp
    simp only [e]
    ring_nf

theorem bitPoly_degree (l : List Bool) : (bitPoly l).degree < (l.length : WithBot ℕ) := by
  induction l using List.reverseRecOn with
  | nil => simp [bitPoly]
  | append_singleton l b ih =>
    rw [bitPoly_append]
    have hb : (bitPoly [b]).degree ≤ 0 := by
      cases b <;> simp [bitPoly]
    apply lt_of_le_of_lt (degree_add_le _ _)
    rw [List.length_append]
    simp only [List.length_singleton, pow_one]
    apply max_lt
    · by_cases h0 : bitPoly l = 0
      · simp [h0]
      · rw [degree_mul, degree_X, degree_eq_natDegree h0] at *
        have : (bitPoly l).natDegree < l.length := by exact_mod_cast ih
        exact_mod_cast (by omega)
    · refine lt_of_le_of_lt hb ?_
      exact_mod_cast (by omega : 0 < l.length + 1)

theorem crcGen_eq_bits : crcGen = bitPoly (true :: bits24 0x864CFB#32) := by
  simp only [bits24, bitPoly]
  simp [List.range_succ, BitVec.getLsbD, Nat.testBit, Nat.shiftRight_eq_div_pow]
  unfold crcGen
  ring

theorem crcGen_natDegree : crcGen.natDegree = 24 := by
  unfold crcGen; compute_degree!

theorem crcGen_monic : crcGen.Monic := by
  unfold crcGen; monicity!

theorem crcGen_degree : crcGen.degree = 24 := by
  rw [degree_eq_natDegree crcGen_monic.ne_zero, crcGen_natDegree]; rfl

theorem bitPoly_inj (a b : List Bool) (hl : a.length = b.length) (h : bitPoly a = bitPoly b) : a = b := by
  induction a using List.reverseRecOn generalizing b with
  | nil => exact (List.length_eq_zero_iff.mp hl.symm).symm
  | append_singleton a x ih =>
    rcases List.eq_nil_or_concat b with rfl | ⟨b', y, hb⟩
    · simp at hl
    · rw [List.concat_eq_append] at hb
      subst hb
      rw [bitPoly_append, bitPoly_append] at h
      have hxy : x = y := by
        have := congrArg (fun p => Polynomial.coeff p 0) h
        simp only [List.length_singleton, pow_one, coeff_add, mul_coeff_zero, coeff_X_zero, mul_zero,
          zero_add] at this
        cases x <;> cases y <;> simp [bitPoly] at this <;> rfl
      subst hxy
      have h2 : bitPoly a * X = bitPoly b' * X := by simpa using h
      have h3 := mul_right_cancel₀ X_ne_zero h2
      rw [ih b' (by simpa using hl) h3]

theorem crcGen_coprime_X (n : Nat) : IsCoprime crcGen (X ^ n) := by
  apply IsCoprime.pow_right
  refine ⟨1, -(X^23 + X^22 + X^17 + X^16 + X^13 + X^10 + X^9 + X^6 + X^5 + X^4 + X^3 + X^2 + 1), ?_⟩
  unfold crcGen; ring

end OpenPGP
