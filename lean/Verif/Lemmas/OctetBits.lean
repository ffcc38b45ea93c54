import Verif.Lemmas.HashWords

/-! Octet strings as bit vectors. -/
namespace OpenPGP

/-- An octet string as one word, its first octet most significant. -/
def bvOf (m : Nat) (b : Bytes) : BitVec m := BitVec.ofNat m (num b)

theorem num_testBit (b : Bytes) : ∀ p, p < 8 * b.length →
    (num b).testBit p = (b.getD (b.length - 1 - p / 8) 0).toBitVec.getLsbD (p % 8) := by
  induction b using List.reverseRecOn with
  | nil => intro p hp; simp at hp
  | append_singleton b x ih =>
    intro p hp
    rw [num_append, List.length_append, List.length_singleton] at *
    simp only [num_singleton]
    have hx : x.toNat < 2 ^ 8 := x.toNat_lt
    rw [pow_one, show (256 : Nat) = 2 ^ 8 from rfl, Nat.mul_comm, Nat.testBit_two_pow_mul_add _ hx]
    by_cases h : p < 8
    · rw [if_pos h, show b.length + 1 - 1 - p / 8 = b.length by omega, show p % 8 = p by omega,
        List.getD_append_right _ _ _ _ (le_refl _), Nat.sub_self]
      rfl
    · rw [if_neg h, ih _ (by omega), List.getD_append _ _ _ _ (by omega)]
      rw [show b.length + 1 - 1 - p / 8 = b.length - 1 - (p - 8) / 8 by omega, show (p - 8) % 8 = p % 8 by omega]

theorem bvOf_getLsbD (m : Nat) (b : Bytes) (hb : 8 * b.length = m) (p : Nat) (hp : p < m) :
    (bvOf m b).getLsbD p = (b.getD (b.length - 1 - p / 8) 0).toBitVec.getLsbD (p % 8) := by
  subst hb
  rw [bvOf, BitVec.getLsbD_ofNat, num_testBit b p hp]
  simp [hp]

theorem zipWith_getD (f : UInt8 → UInt8 → UInt8) (a b : Bytes) (h : a.length = b.length) (i : Nat) (hi : i < a.length) :
    (List.zipWith f a b).getD i 0 = f (a.getD i 0) (b.getD i 0) := by
  have hb : i < b.length := h ▸ hi
  simp [List.getD, hi, hb]

theorem bvOf_xor (m : Nat) (a b : Bytes) (ha : 8 * a.length = m) (hb : 8 * b.length = m) :
    bvOf m (xorStrings a b) = bvOf m a ^^^ bvOf m b := by
  have hl : (xorStrings a b).length = a.length := by simp [xorStrings]; omega
  apply BitVec.eq_of_getLsbD_eq
  intro p hp
  rw [BitVec.getLsbD_xor, bvOf_getLsbD _ _ (by omega) _ hp, bvOf_getLsbD _ _ ha _ hp, bvOf_getLsbD _ _ hb _ hp, hl,
    show b.length = a.length by omega]
  unfold xorStrings
  rw [zipWith_getD _ _ _ (by omega) _ (by omega)]
  simp

theorem bvOf_and (m : Nat) (a b : Bytes) (ha : 8 * a.length = m) (hb : 8 * b.length = m) :
    bvOf m (andStrings a b) = bvOf m a &&& bvOf m b := by
  have hl : (andStrings a b).length = a.length := by simp [andStrings]; omega
  apply BitVec.eq_of_getLsbD_eq
  intro p hp
  rw [BitVec.getLsbD_and, bvOf_getLsbD _ _ (by omega) _ hp, bvOf_getLsbD _ _ ha _ hp, bvOf_getLsbD _ _ hb _ hp, hl,
    show b.length = a.length by omega]
  unfold andStrings
  rw [zipWith_getD _ _ _ (by omega) _ (by omega)]
  simp

theorem bvOf_or (m : Nat) (a b : Bytes) (ha : 8 * a.length = m) (hb : 8 * b.length = m) :
    bvOf m (orStrings a b) = bvOf m a ||| bvOf m b := by
  have hl : (orStrings a b).length = a.length := by simp [orStrings]; omega
  apply BitVec.eq_of_getLsbD_eq
  intro p hp
  rw [BitVec.getLsbD_or, bvOf_getLsbD _ _ (by omega) _ hp, bvOf_getLsbD _ _ ha _ hp, bvOf_getLsbD _ _ hb _ hp, hl,
    show b.length = a.length by omega]
  unfold orStrings
  rw [zipWith_getD _ _ _ (by omega) _ (by omega)]
  simp

/-- A piece of an octet string. -/
theorem bvOf_piece (m l : Nat) (b : Bytes) (o n : Nat) (hb : 8 * b.length = m) (hl : 8 * n = l) (h : o + n ≤ b.length) :
    bvOf l ((b.drop o).take n) = (bvOf m b).extractLsb' (m - 8 * o - l) l := by
  have hlen : ((b.drop o).take n).length = n := by simp; omega
  apply BitVec.eq_of_getLsbD_eq
  intro p hp
  rw [BitVec.getLsbD_extractLsb', bvOf_getLsbD _ _ (by omega) _ hp, bvOf_getLsbD _ _ hb _ (by omega), hlen]
  rw [List.getD, List.getElem?_take, if_pos (by omega), List.getElem?_drop, ← List.getD]
  simp only [hp, decide_true, Bool.true_and]
  rw [show b.length - 1 - (m - 8 * o - l + p) / 8 = o + (n - 1 - p / 8) by omega,
    show (m - 8 * o - l + p) % 8 = p % 8 by omega]

theorem bvOf_append (m n k : Nat) (a b : Bytes) (ha : 8 * a.length = m) (hb : 8 * b.length = n) (hk : k = m + n) :
    bvOf k (a ++ b) = (bvOf m a ++ bvOf n b).cast hk.symm := by
  subst hk
  apply BitVec.eq_of_getLsbD_eq
  intro p hp
  rw [BitVec.cast_eq, BitVec.getLsbD_append, bvOf_getLsbD _ _ (by rw [List.length_append]; omega) _ hp, List.length_append]
  by_cases h : p < n
  · rw [if_pos h, bvOf_getLsbD _ _ hb _ h, List.getD_append_right _ _ _ _ (by omega)]
    congr 3; omega
  · rw [if_neg h, bvOf_getLsbD _ _ ha _ (by omega), List.getD_append _ _ _ _ (by omega)]
    rw [show a.length + b.length - 1 - p / 8 = a.length - 1 - (p - n) / 8 by omega, show (p - n) % 8 = p % 8 by omega]

theorem bvOf_octet (x : UInt8) : bvOf 8 [x] = x.toBitVec := by
  rw [bvOf, num_singleton]
  apply BitVec.eq_of_toNat_eq
  rw [BitVec.toNat_ofNat, Nat.mod_eq_of_lt x.toNat_lt]
  rfl

/-- The octet at position `i`. -/
theorem bvOf_at (m : Nat) (b : Bytes) (i : Nat) (hb : 8 * b.length = m) (h : i < b.length) :
    (bvOf m b).extractLsb' (m - 8 * i - 8) 8 = (b.getD i 0).toBitVec := by
  rw [← bvOf_piece m 8 b i 1 hb rfl (by omega), ← bvOf_octet]
  congr 1
  rw [List.take_one_drop_eq_of_lt_length h, List.getD_eq_getElem _ _ h]
  rfl

theorem be_bvOf (m n : Nat) (b : Bytes) (hb : b.length = n) (hm : 8 * n = m) : be n (bvOf m b).toNat = b := by
  subst hb hm
  rw [bvOf, BitVec.toNat_ofNat, Nat.mod_eq_of_lt, be_num]
  have := num_lt b
  rwa [show (256 : Nat) = 2 ^ 8 from rfl, ← pow_mul] at this

end OpenPGP
