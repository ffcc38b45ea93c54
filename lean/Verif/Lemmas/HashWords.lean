import Verif.Model.Hashes
import Verif.Spec.Hash
import Verif.Lemmas.SineTable
import Mathlib.Tactic.IntervalCases

/-! Word-level facts: the code's rotations, boolean functions, message schedules and constant tables are the standards'. -/
namespace OpenPGP

theorem getLsbD_mask (n i : Nat) (hn : n < 64) : ((1#64 <<< n) - 1#64).getLsbD i = decide (i < n) := by
  have h1 : ((1#64 <<< n) - 1#64).toNat = 2 ^ n - 1 := by
    have hlt : 2 ^ n < 2 ^ 64 := Nat.pow_lt_pow_right (by norm_num) hn
    have hpos : 0 < 2 ^ n := Nat.pos_of_ne_zero (by positivity)
    have h2 : (1#64 <<< n).toNat = 2 ^ n := by
      rw [BitVec.toNat_shiftLeft]
      show 1 <<< n % 2 ^ 64 = 2 ^ n
      rw [Nat.one_shiftLeft, Nat.mod_eq_of_lt hlt]
    rw [BitVec.toNat_sub, h2]
    have : (1#64).toNat = 1 := rfl
    rw [this]
    omega
  rw [← BitVec.testBit_toNat, h1, Nat.testBit_two_pow_sub_one]

theorem ror_eq {w : Nat} (hw : w ≤ 64) (x : BitVec w) (n : Nat) (h0 : 0 < n) (hn : n < w) :
    ror x n w = x.rotateRight n := by
  apply BitVec.eq_of_getLsbD_eq
  intro i hi
  have hn64 : n < 64 := by omega
  simp only [ror, BitVec.getLsbD_or, BitVec.getLsbD_ushiftRight, BitVec.getLsbD_setWidth,
    BitVec.getLsbD_shiftLeft, BitVec.getLsbD_and, getLsbD_mask _ _ hn64, BitVec.getLsbD_rotateRight,
    Nat.mod_eq_of_lt hn]
  by_cases h : i < w - n
  · have h64 : n + i < 64 := by omega
    simp [h, h64, hi]
  · have h1 : x.getLsbD (n + i) = false := BitVec.getLsbD_of_ge _ _ (by omega)
    have h2 : i - (w - n) < n := by omega
    have h3 : i < 64 := by omega
    have h4 : i - (w - n) < 64 := by omega
    simp [h, h1, h2, h3, h4, hi]

theorem rol_eq {w : Nat} (hw : w ≤ 64) (x : BitVec w) (n : Nat) (h0 : 0 < n) (hn : n < w) :
    rol x n w = x.rotateLeft n := by
  rw [rol, ror_eq hw x (w - n) (by omega) (by omega)]
  apply BitVec.eq_of_getLsbD_eq
  intro i hi
  have e : w - (w - n) = n := by omega
  simp only [BitVec.getLsbD_rotateRight, BitVec.getLsbD_rotateLeft, Nat.mod_eq_of_lt hn,
    Nat.mod_eq_of_lt (show w - n < w by omega), e]

theorem sha2Ch_eq {w : Nat} (hw : w ≤ 64) (m n o : BitVec w) : sha2Ch m n o = Std.ch m n o := by
  ext i hi
  have : i < 64 := by omega
  simp [sha2Ch, Std.ch, this, BitVec.getLsbD_eq_getElem hi]

theorem sha2Maj_eq {w : Nat} (hw : w ≤ 64) (m n o : BitVec w) : sha2Maj m n o = Std.maj m n o := by
  ext i hi
  have : i < 64 := by omega
  simp [sha2Maj, Std.maj, this, BitVec.getLsbD_eq_getElem hi]

theorem ch_or {w : Nat} (b c d : BitVec w) : (b &&& c) ||| (~~~b &&& d) = Std.ch b c d := by
  ext i hi
  simp [Std.ch]
  cases b[i] <;> cases c[i] <;> cases d[i] <;> rfl

theorem maj_or {w : Nat} (b c d : BitVec w) : (b &&& c) ||| (b &&& d) ||| (c &&& d) = Std.maj b c d := by
  ext i hi
  simp [Std.maj]
  cases b[i] <;> cases c[i] <;> cases d[i] <;> rfl

theorem expandWords_eq {w : Nat} (f : List (BitVec w) → BitVec w) (W : Nat → BitVec w)
    (hf : ∀ k, 16 ≤ k → f ((List.range k).map W) = W k) (n k : Nat) (hk : 16 ≤ k) :
    expandWords f n ((List.range k).map W) = (List.range (k + n)).map W := by
  induction n generalizing k with
  | zero => rfl
  | succ n ih =>
    rw [expandWords, hf k hk]
    have : (List.range k).map W ++ [W k] = (List.range (k + 1)).map W := by
      rw [List.range_succ]; simp
    rw [this, ih (k + 1) (by omega)]
    congr 2; omega

theorem back_map {w : Nat} (W : Nat → BitVec w) (k i : Nat) (hi : 0 < i) (hik : i ≤ k) :
    back ((List.range k).map W) i = W (k - i) := by
  have : k - i < k := by omega
  simp [back, List.getD_eq_getElem?_getD, this]

theorem getD_map_range {α : Type} (W : Nat → α) (k i : Nat) (d : α) (hi : i < k) :
    ((List.range k).map W).getD i d = W i := by
  simp [List.getD_eq_getElem?_getD, hi]

theorem toint256_small (s : Bytes) (h : s.length ≤ 8) : toint256 s = num s := by
  have h1 := num_lt s
  have h2 : 256 ^ s.length ≤ 256 ^ 8 := Nat.pow_le_pow_right (by norm_num) h
  exact Nat.mod_eq_of_lt (lt_of_lt_of_le h1 (le_trans h2 (by norm_num)))

theorem wordAt_be (o : Nat) (ho : o ≤ 8) (b : Bytes) (x : Nat) : wordAt (8 * o) b (x * o) o = Std.wordBE o b x := by
  rw [wordAt, Std.wordBE, toint256_small, Nat.mul_comm x o]
  simp; omega

/-! ### Constants -/

/-- Trial division, for kernel evaluation. -/
def isPrimeB (n : Nat) : Bool := decide (2 ≤ n) && (List.range n).all fun d => decide (d < 2) || decide (n % d ≠ 0)

theorem isPrimeB_iff (n : Nat) : isPrimeB n = true ↔ Nat.Prime n := by
  rw [isPrimeB, Nat.prime_def_lt']
  simp only [Bool.and_eq_true, decide_eq_true_eq, List.all_eq_true, List.mem_range, Bool.or_eq_true]
  constructor
  · rintro ⟨h, h2⟩
    refine ⟨h, fun m hm hmn hd => ?_⟩
    rcases h2 m hmn with h3 | h3
    · omega
    · exact h3 (Nat.mod_eq_zero_of_dvd hd)
  · rintro ⟨h, h2⟩
    refine ⟨h, fun d hd => ?_⟩
    by_cases h3 : d < 2
    · exact .inl h3
    · exact .inr fun h4 => h2 d (by omega) hd (Nat.dvd_of_mod_eq_zero h4)

/-- The primes below 410. -/
def smallPrimes : List Nat := (List.range 410).filter isPrimeB

theorem count_prime (n : Nat) : Nat.count Nat.Prime n = ((List.range n).filter isPrimeB).length := by
  induction n with
  | zero => simp
  | succ n ih =>
    rw [Nat.count_succ, ih, List.range_succ, List.filter_append, List.length_append]
    by_cases h : isPrimeB n = true
    · simp [h, (isPrimeB_iff n).mp h]
    · have h2 : ¬ Nat.Prime n := fun h3 => h ((isPrimeB_iff n).mpr h3)
      simp [h, h2]

theorem smallPrimes_eq : smallPrimes =
  [2, 3, 5, 7, 11, 13, 17, 19, 23, 29, 31, 37, 41, 43, 47, 53, 59, 61, 67, 71, 73, 79, 83, 89, 97, 101, 103, 107,
   109, 113, 127, 131, 137, 139, 149, 151, 157, 163, 167, 173, 179, 181, 191, 193, 197, 199, 211, 223, 227, 229,
   233, 239, 241, 251, 257, 263, 269, 271, 277, 281, 283, 293, 307, 311, 313, 317, 331, 337, 347, 349, 353, 359,
   367, 373, 379, 383, 389, 397, 401, 409] := by decide +kernel

theorem filter_take_range (p : Nat → Bool) (N k : Nat) (hk : k < ((List.range N).filter p).length) :
    (List.range (((List.range N).filter p)[k])).filter p = ((List.range N).filter p).take k := by
  induction N with
  | zero => simp at hk
  | succ N ih =>
    simp only [List.range_succ, List.filter_append] at hk ⊢
    by_cases h : k < ((List.range N).filter p).length
    · rw [List.getElem_append_left h, ih h, List.take_append_of_le_length (by omega)]
    · by_cases hp : p N = true
      · have hk2 : k = ((List.range N).filter p).length := by
          simp [hp] at hk h; omega
        subst hk2
        rw [List.getElem_append_right (by omega)]
        simp [hp]
      · simp [hp] at hk; omega

theorem prime_small (t : Nat) (ht : t < 80) : Std.prime t = smallPrimes.getD t 0 := by
  have hlen : smallPrimes.length = 80 := by rw [smallPrimes_eq]; rfl
  have ht' : t < ((List.range 410).filter isPrimeB).length := by rw [smallPrimes] at hlen; omega
  have hc : Nat.count Nat.Prime smallPrimes[t] = t := by
    rw [count_prime]
    have := congrArg List.length (filter_take_range isPrimeB 410 t ht')
    simp only [smallPrimes]
    rw [this, List.length_take]; omega
  have hp : Nat.Prime smallPrimes[t] := by
    rw [← isPrimeB_iff]
    have := List.getElem_mem ht'
    exact (List.mem_filter.mp this).2
  rw [List.getD_eq_getElem?_getD, List.getElem?_eq_getElem (by omega)]
  rw [Std.prime]
  conv_lhs => rw [← hc]
  exact Nat.nth_count hp

theorem cbrt_eq (n r : Nat) (h1 : r ^ 3 ≤ n) (h2 : n < (r + 1) ^ 3) : Std.cbrt n = r := by
  rw [Std.cbrt, Nat.findGreatest_eq_iff]
  refine ⟨le_trans (Nat.le_self_pow (by norm_num) r) h1, fun _ => h1, ?_⟩
  intro m hm _ h3
  have : (r + 1) ^ 3 ≤ m ^ 3 := Nat.pow_le_pow_left hm 3
  omega

/-- Whether `k` is the fractional part, in `w` bits, of the cube root of `p` (whose integer part is `i`). -/
def cbrtFrac (w p i k : Nat) : Bool :=
  decide ((i * 2 ^ w + k) ^ 3 ≤ p * 2 ^ (3 * w)) && decide (p * 2 ^ (3 * w) < (i * 2 ^ w + k + 1) ^ 3)

theorem ofNat_cbrt {w p i : Nat} {k : BitVec w} (h : cbrtFrac w p i k.toNat = true) :
    BitVec.ofNat w (Std.cbrt (p * 2 ^ (3 * w))) = k := by
  simp only [cbrtFrac, Bool.and_eq_true, decide_eq_true_eq] at h
  rw [cbrt_eq _ _ h.1 h.2]
  apply BitVec.eq_of_toNat_eq
  rw [BitVec.toNat_ofNat, Nat.mul_add_mod_self_right, Nat.mod_eq_of_lt k.isLt]

/-- The integer part of the cube root of a number below 512. -/
def icbrt (p : Nat) : Nat := ((List.range 8).filter fun i => (i + 1) ^ 3 ≤ p).length

theorem sha256K_eq (t : Nat) (ht : t < 64) : sha256K.getD t 0 = Std.sha2K 32 t := by
  have h : ∀ t ∈ List.range 64, cbrtFrac 32 (smallPrimes.getD t 0) (icbrt (smallPrimes.getD t 0))
      (sha256K.getD t 0).toNat = true := by rw [smallPrimes_eq]; decide +kernel
  rw [Std.sha2K, prime_small t (by omega)]
  exact (ofNat_cbrt (h t (List.mem_range.mpr ht))).symm

theorem sha512K_eq (t : Nat) (ht : t < 80) : sha512K.getD t 0 = Std.sha2K 64 t := by
  have h : ∀ t ∈ List.range 80, cbrtFrac 64 (smallPrimes.getD t 0) (icbrt (smallPrimes.getD t 0))
      (sha512K.getD t 0).toNat = true := by rw [smallPrimes_eq]; decide +kernel
  rw [Std.sha2K, prime_small t (by omega)]
  exact (ofNat_cbrt (h t (List.mem_range.mpr ht))).symm

theorem sqrt_of (n r : Nat) (h1 : r * r ≤ n) (h2 : n < (r + 1) * (r + 1)) : Nat.sqrt n = r :=
  Nat.eq_sqrt.mpr ⟨h1, h2⟩ |>.symm

theorem sqrtFrac_eq {w t : Nat} (ht : t < 80) (i : Nat) (k : BitVec w)
    (h : (i * 2 ^ w + k.toNat) * (i * 2 ^ w + k.toNat) ≤ smallPrimes.getD t 0 * 2 ^ (2 * w) ∧
      smallPrimes.getD t 0 * 2 ^ (2 * w) < (i * 2 ^ w + k.toNat + 1) * (i * 2 ^ w + k.toNat + 1)) :
    Std.sqrtFrac w t = k := by
  rw [Std.sqrtFrac, prime_small t ht, sqrt_of _ _ h.1 h.2]
  apply BitVec.eq_of_toNat_eq
  rw [BitVec.toNat_ofNat, Nat.mul_add_mod_self_right, Nat.mod_eq_of_lt k.isLt]

theorem state8_mk {w : Nat} {a b c d e f g h a' b' c' d' e' f' g' h' : BitVec w} (h1 : a = a') (h2 : b = b')
    (h3 : c = c') (h4 : d = d') (h5 : e = e') (h6 : f = f') (h7 : g = g') (h8 : h = h') :
    Std.State8.mk a b c d e f g h = Std.State8.mk a' b' c' d' e' f' g' h' := by
  subst h1 h2 h3 h4 h5 h6 h7 h8; rfl

theorem sha256_init : Std.sqrtInit 32 0 =
    ⟨0x6a09e667, 0xbb67ae85, 0x3c6ef372, 0xa54ff53a, 0x510e527f, 0x9b05688c, 0x1f83d9ab, 0x5be0cd19⟩ := by
  rw [Std.sqrtInit]
  apply state8_mk
  · exact sqrtFrac_eq (by decide) 1 _ (by rw [smallPrimes_eq]; decide +kernel)
  · exact sqrtFrac_eq (by decide) 1 _ (by rw [smallPrimes_eq]; decide +kernel)
  · exact sqrtFrac_eq (by decide) 2 _ (by rw [smallPrimes_eq]; decide +kernel)
  · exact sqrtFrac_eq (by decide) 2 _ (by rw [smallPrimes_eq]; decide +kernel)
  · exact sqrtFrac_eq (by decide) 3 _ (by rw [smallPrimes_eq]; decide +kernel)
  · exact sqrtFrac_eq (by decide) 3 _ (by rw [smallPrimes_eq]; decide +kernel)
  · exact sqrtFrac_eq (by decide) 4 _ (by rw [smallPrimes_eq]; decide +kernel)
  · exact sqrtFrac_eq (by decide) 4 _ (by rw [smallPrimes_eq]; decide +kernel)

theorem sha512_init : Std.sqrtInit 64 0 =
    ⟨0x6a09e667f3bcc908, 0xbb67ae8584caa73b, 0x3c6ef372fe94f82b, 0xa54ff53a5f1d36f1,
    0x510e527fade682d1, 0x9b05688c2b3e6c1f, 0x1f83d9abfb41bd6b, 0x5be0cd19137e2179⟩ := by
  rw [Std.sqrtInit]
  apply state8_mk
  · exact sqrtFrac_eq (by decide) 1 _ (by rw [smallPrimes_eq]; decide +kernel)
  · exact sqrtFrac_eq (by decide) 1 _ (by rw [smallPrimes_eq]; decide +kernel)
  · exact sqrtFrac_eq (by decide) 2 _ (by rw [smallPrimes_eq]; decide +kernel)
  · exact sqrtFrac_eq (by decide) 2 _ (by rw [smallPrimes_eq]; decide +kernel)
  · exact sqrtFrac_eq (by decide) 3 _ (by rw [smallPrimes_eq]; decide +kernel)
  · exact sqrtFrac_eq (by decide) 3 _ (by rw [smallPrimes_eq]; decide +kernel)
  · exact sqrtFrac_eq (by decide) 4 _ (by rw [smallPrimes_eq]; decide +kernel)
  · exact sqrtFrac_eq (by decide) 4 _ (by rw [smallPrimes_eq]; decide +kernel)

theorem sha384_init : Std.sqrtInit 64 8 =
    ⟨0xcbbb9d5dc1059ed8, 0x629a292a367cd507, 0x9159015a3070dd17, 0x152fecd8f70e5939,
    0x67332667ffc00b31, 0x8eb44a8768581511, 0xdb0c2e0d64f98fa7, 0x47b5481dbefa4fa4⟩ := by
  rw [Std.sqrtInit]
  apply state8_mk
  · exact sqrtFrac_eq (by decide) 4 _ (by rw [smallPrimes_eq]; decide +kernel)
  · exact sqrtFrac_eq (by decide) 5 _ (by rw [smallPrimes_eq]; decide +kernel)
  · exact sqrtFrac_eq (by decide) 5 _ (by rw [smallPrimes_eq]; decide +kernel)
  · exact sqrtFrac_eq (by decide) 6 _ (by rw [smallPrimes_eq]; decide +kernel)
  · exact sqrtFrac_eq (by decide) 6 _ (by rw [smallPrimes_eq]; decide +kernel)
  · exact sqrtFrac_eq (by decide) 6 _ (by rw [smallPrimes_eq]; decide +kernel)
  · exact sqrtFrac_eq (by decide) 6 _ (by rw [smallPrimes_eq]; decide +kernel)
  · exact sqrtFrac_eq (by decide) 7 _ (by rw [smallPrimes_eq]; decide +kernel)

theorem sha224_init : Std.sha224Init =
    ⟨0xc1059ed8, 0x367cd507, 0x3070dd17, 0xf70e5939, 0xffc00b31, 0x68581511, 0x64f98fa7, 0xbefa4fa4⟩ := by
  rw [Std.sha224Init, sha384_init]
  congr 1

theorem ripemdk_eq (t : Nat) (ht : t < 80) : ripemdk.getD (t / 16) 0 = Std.rmdLeftK (t / 16) := by
  have : t / 16 < 5 := by omega
  have e2 : Nat.sqrt (2 * 2 ^ 60) = 0x5A827999 := sqrt_of _ _ (by norm_num) (by norm_num)
  have e3 : Nat.sqrt (3 * 2 ^ 60) = 0x6ED9EBA1 := sqrt_of _ _ (by norm_num) (by norm_num)
  have e5 : Nat.sqrt (5 * 2 ^ 60) = 0x8F1BBCDC := sqrt_of _ _ (by norm_num) (by norm_num)
  have e7 : Nat.sqrt (7 * 2 ^ 60) = 0xA953FD4E := sqrt_of _ _ (by norm_num) (by norm_num)
  interval_cases t / 16 <;> simp only [Std.rmdLeftK, e2, e3, e5, e7] <;> rfl

theorem ripemdK_eq (t : Nat) (ht : t < 80) : ripemdK.getD (t / 16) 0 = Std.rmdRightK (t / 16) := by
  have : t / 16 < 5 := by omega
  have e2 : Std.cbrt (2 * 2 ^ 90) = 0x50A28BE6 := cbrt_eq _ _ (by norm_num) (by norm_num)
  have e3 : Std.cbrt (3 * 2 ^ 90) = 0x5C4DD124 := cbrt_eq _ _ (by norm_num) (by norm_num)
  have e5 : Std.cbrt (5 * 2 ^ 90) = 0x6D703EF3 := cbrt_eq _ _ (by norm_num) (by norm_num)
  have e7 : Std.cbrt (7 * 2 ^ 90) = 0x7A6D76E9 := cbrt_eq _ _ (by norm_num) (by norm_num)
  interval_cases t / 16 <;> simp only [Std.rmdRightK, e2, e3, e5, e7] <;> rfl

theorem ripemdr_eq (t : Nat) (ht : t < 80) : ripemdr.getD t 0 = Std.rmdLeftWord (t / 16) (t % 16) := by
  have h : ∀ t ∈ List.range 80, ripemdr.getD t 0 = Std.rmdLeftWord (t / 16) (t % 16) := by decide +kernel
  exact h t (List.mem_range.mpr ht)

theorem ripemdR_eq (t : Nat) (ht : t < 80) : ripemdR.getD t 0 = Std.rmdRightWord (t / 16) (t % 16) := by
  have h : ∀ t ∈ List.range 80, ripemdR.getD t 0 = Std.rmdRightWord (t / 16) (t % 16) := by decide +kernel
  exact h t (List.mem_range.mpr ht)

theorem ripemds_eq (t : Nat) (ht : t < 80) :
    ripemds.getD t 0 = Std.rmdShift (t / 16) (Std.rmdLeftWord (t / 16) (t % 16)) ∧ 0 < ripemds.getD t 0 ∧
      ripemds.getD t 0 < 32 := by
  have h : ∀ t ∈ List.range 80, ripemds.getD t 0 = Std.rmdShift (t / 16) (Std.rmdLeftWord (t / 16) (t % 16)) ∧
      0 < ripemds.getD t 0 ∧ ripemds.getD t 0 < 32 := by decide +kernel
  exact h t (List.mem_range.mpr ht)

theorem ripemdS_eq (t : Nat) (ht : t < 80) :
    ripemdS.getD t 0 = Std.rmdShift (t / 16) (Std.rmdRightWord (t / 16) (t % 16)) ∧ 0 < ripemdS.getD t 0 ∧
      ripemdS.getD t 0 < 32 := by
  have h : ∀ t ∈ List.range 80, ripemdS.getD t 0 = Std.rmdShift (t / 16) (Std.rmdRightWord (t / 16) (t % 16)) ∧
      0 < ripemdS.getD t 0 ∧ ripemdS.getD t 0 < 32 := by decide +kernel
  exact h t (List.mem_range.mpr ht)

theorem md5R_eq (t : Nat) (ht : t < 64) :
    md5R.getD t 0 = Std.md5s (t / 16) (t % 16) ∧ 0 < md5R.getD t 0 ∧ md5R.getD t 0 < 32 := by
  have h : ∀ t ∈ List.range 64, md5R.getD t 0 = Std.md5s (t / 16) (t % 16) ∧ 0 < md5R.getD t 0 ∧
      md5R.getD t 0 < 32 := by decide +kernel
  exact h t (List.mem_range.mpr ht)

/-- The table of the code against the digits of the sines (`sine_floor`). -/
theorem md5K_check : ∀ t < 64, ((md5K.getD t 0).toNat * 2 ^ 21 + 1) * 121645100408832000 ^ (t + 1) ≤ (sineNum (t + 1)).2.natAbs * 2 ^ 53 ∧
    (sineNum (t + 1)).2.natAbs * 2 ^ 53 + 121645100408832000 ^ (t + 1) <
      ((md5K.getD t 0).toNat + 1) * 2 ^ 21 * 121645100408832000 ^ (t + 1) := by decide +kernel

theorem md5K_eq (t : Nat) (ht : t < 64) : md5K.getD t 0 = Std.md5T (t + 1) := by
  rw [Std.md5T, sine_floor (t + 1) _ (by omega) (md5K_check t ht), BitVec.ofNat_toNat, BitVec.setWidth_eq]

end OpenPGP
