import Verif.Lemmas.BlowfishPi
import Verif.Lemmas.Blowfish
import Verif.Lemmas.TwofishRounds

/-! `src/Encryptions/Blowfish.cpp` computes Blowfish. -/
namespace OpenPGP
open Std.Blowfish (P S F cipher replace Tables piWord)

theorem be4_bf (x : BitVec 32) : be 4 x.toNat = Std.Blowfish.octets x := by
  have h := congrArg List.reverse (octets_std x)
  rw [List.reverse_reverse] at h
  rw [h]
  rfl

theorem octetsWord (x0 x1 x2 x3 : UInt8) :
    (x0.toBitVec ++ x1.toBitVec ++ x2.toBitVec ++ x3.toBitVec : BitVec 32) = BitVec.ofNat 32 (num [x0, x1, x2, x3]) := by
  rw [show (x0.toBitVec ++ x1.toBitVec ++ x2.toBitVec ++ x3.toBitVec : BitVec 32) =
    Std.Twofish.ofBytes x3.toBitVec x2.toBitVec x1.toBitVec x0.toBitVec from rfl, ← packWord_std]
  apply BitVec.eq_of_toNat_eq
  rw [packWord_toNat]
  have h0 := x0.toNat_lt
  have h1 := x1.toNat_lt
  have h2 := x2.toNat_lt
  have h3 := x3.toNat_lt
  simp only [UInt8.toNat_toBitVec, BitVec.toNat_ofNat]
  simp [num]
  omega

theorem wordAt_octets4 (s : Bytes) (p : Nat) (h : p + 4 ≤ s.length) : wordAt 32 s p 4 =
    (s.getD p 0).toBitVec ++ (s.getD (p + 1) 0).toBitVec ++ (s.getD (p + 2) 0).toBitVec ++ (s.getD (p + 3) 0).toBitVec := by
  have e : (s.drop p).take 4 = [s.getD p 0, s.getD (p + 1) 0, s.getD (p + 2) 0, s.getD (p + 3) 0] := by
    apply List.ext_getElem
    · simp; omega
    · intro j h1 h2
      simp only [List.length_cons, List.length_nil] at h2
      simp only [List.getElem_take, List.getElem_drop]
      have a0 := List.getElem?_eq_getElem (show p < s.length by omega)
      have a1 := List.getElem?_eq_getElem (show p + 1 < s.length by omega)
      have a2 := List.getElem?_eq_getElem (show p + 2 < s.length by omega)
      have a3 := List.getElem?_eq_getElem (show p + 3 < s.length by omega)
      interval_cases j <;> simp [List.getD_eq_getElem?_getD, a0, a1, a2, a3]
  rw [octetsWord, ← e, wordAt]
  congr 1
  exact toint256_small _ (by simp)

/-! ## The key, repeated -/

theorem bfDouble_spec : ∀ (s : Nat) (key : Bytes) (m : Nat), key.length = m → 0 < m →
    (bfDouble s key).length = m * 2 ^ s ∧ ∀ j, j < m * 2 ^ s → (bfDouble s key).getD j 0 = key.getD (j % m) 0 := by
  intro s
  induction s with
  | zero =>
    intro key m hm h0
    refine ⟨by simp [bfDouble, hm], ?_⟩
    intro j hj
    rw [bfDouble, Nat.mod_eq_of_lt (by simpa using hj)]
  | succ s ih =>
    intro key m hm h0
    obtain ⟨a, b⟩ := ih (key ++ key) (m + m) (by simp [hm]) (by omega)
    have e : (m + m) * 2 ^ s = m * 2 ^ (s + 1) := by rw [pow_succ]; ring
    rw [e] at a b
    refine ⟨a, ?_⟩
    intro j hj
    rw [bfDouble, b j hj, List.getD_eq_getElem?_getD, List.getD_eq_getElem?_getD]
    have hmod : j % (m + m) % m = j % m := Nat.mod_mod_of_dvd j ⟨2, by ring⟩
    have hlt := Nat.mod_lt j (show 0 < m + m by omega)
    by_cases h : j % (m + m) < m
    · rw [List.getElem?_append_left (by omega), ← hmod, Nat.mod_eq_of_lt h]
    · rw [List.getElem?_append_right (by omega), hm, ← hmod]
      rw [show j % (m + m) % m = j % (m + m) - m by
        rw [Nat.mod_eq_sub_mod (by omega), Nat.mod_eq_of_lt (by omega)]]

theorem bfKey_word (KEY : Bytes) (h : 0 < KEY.length) (x : Nat) (hx : x < 18) :
    wordAt 32 ((bfDouble (72 / KEY.length + 1) KEY).take 72) (4 * x) 4 = Std.Blowfish.cycWord KEY (4 * x) := by
  obtain ⟨hl, hg⟩ := bfDouble_spec (72 / KEY.length + 1) KEY KEY.length rfl h
  have h72 : 72 ≤ KEY.length * 2 ^ (72 / KEY.length + 1) := by
    have h1 : 72 / KEY.length + 1 < 2 ^ (72 / KEY.length + 1) := Nat.lt_two_pow_self
    have h2 := Nat.lt_mul_div_succ 72 h
    calc 72 ≤ KEY.length * (72 / KEY.length + 1) := h2.le
      _ ≤ _ := Nat.mul_le_mul_left _ h1.le
  have hl' : ((bfDouble (72 / KEY.length + 1) KEY).take 72).length = 72 := by simp [hl]; omega
  have hg' : ∀ j, j < 72 → ((bfDouble (72 / KEY.length + 1) KEY).take 72).getD j 0 = KEY.getD (j % KEY.length) 0 := by
    intro j hj
    rw [← hg j (by omega), List.getD_eq_getElem?_getD, List.getElem?_take, if_pos hj, List.getD_eq_getElem?_getD]
  rw [wordAt_octets4 _ _ (by omega), hg' _ (by omega), hg' _ (by omega), hg' _ (by omega), hg' _ (by omega)]
  rfl

theorem blockWord (b : Bytes) (hb : b.length = 8) (i : Nat) (hi : i = 0 ∨ i = 4) :
    wordAt 32 b i 4 = Std.Blowfish.cycWord b i := by
  rw [wordAt_octets4 _ _ (by omega), Std.Blowfish.cycWord]
  dsimp only
  rw [hb, Nat.mod_eq_of_lt (show i < 8 by omega), Nat.mod_eq_of_lt (show i + 1 < 8 by omega),
    Nat.mod_eq_of_lt (show i + 2 < 8 by omega), Nat.mod_eq_of_lt (show i + 3 < 8 by omega)]

/-! ## The cipher -/

/-- The arrays of an object are the tables. -/
structure BfRel (p sbox : List (BitVec 32)) (T : Tables) : Prop where
  plen : p.length = 18
  slen : sbox.length = 2048
  P : ∀ i, i < 18 → p.getD i 0 = T i
  S : ∀ k b, k < 4 → b < 256 → sbox.getD (512 * k + b) 0 = T (18 + 256 * k + b)

theorem bfF_std {p sbox : List (BitVec 32)} {T : Tables} (h : BfRel p sbox T) (x : BitVec 32) : bfF sbox x = F T x := by
  have e3 : (x >>> 24).toNat = (x.extractLsb' 24 8).toNat := by
    have := x.isLt
    simp [BitVec.extractLsb'_toNat, Nat.shiftRight_eq_div_pow]; omega
  have em : ∀ y : BitVec 32, (y &&& 255).toNat = y.toNat % 256 := by
    intro y
    rw [BitVec.toNat_and, show (255 : BitVec 32).toNat = 2 ^ 8 - 1 from rfl, Nat.and_two_pow_sub_one_eq_mod]
  have e2 : ((x >>> 16) &&& 255).toNat = (x.extractLsb' 16 8).toNat := by rw [em]; simp [BitVec.extractLsb'_toNat]
  have e1 : ((x >>> 8) &&& 255).toNat = (x.extractLsb' 8 8).toNat := by rw [em]; simp [BitVec.extractLsb'_toNat]
  have e0 : (x &&& 255).toNat = (x.extractLsb' 0 8).toNat := by rw [em]; simp [BitVec.extractLsb'_toNat]
  simp only [bfF, F, Std.Blowfish.S, e3, e2, e1, e0]
  rw [h.S 0 _ (by omega) (x.extractLsb' 24 8).isLt, h.S 1 _ (by omega) (x.extractLsb' 16 8).isLt,
    h.S 2 _ (by omega) (x.extractLsb' 8 8).isLt, h.S 3 _ (by omega) (x.extractLsb' 0 8).isLt]

theorem bfCipher_std {p sbox : List (BitVec 32)} {T : Tables} (h : BfRel p sbox T) (data : Bytes) :
    bfBlock p sbox data = .ok (be 4 (cipher T (wordAt 32 data 0 4, wordAt 32 data 4 4)).1.toNat ++
      be 4 (cipher T (wordAt 32 data 0 4, wordAt 32 data 4 4)).2.toNat) := by
  have rounds : ∀ (n : Nat) (d : BitVec 32 × BitVec 32), n ≤ 16 →
      (List.range n).foldl (bfRound p sbox) d = (List.range' 1 n).foldl (Std.Blowfish.round T) d := by
    intro n d
    induction n with
    | zero => intro _; rfl
    | succ n ih =>
      intro hn
      rw [List.range_succ, List.range'_concat, List.foldl_append, List.foldl_append, ih (by omega)]
      simp only [List.foldl_cons, List.foldl_nil, bfRound, Std.Blowfish.round, Std.Blowfish.P]
      rw [h.P n (by omega), bfF_std h, show 1 + 1 * n - 1 = n by omega, BitVec.xor_comm (F T _)]
  unfold bfBlock
  rw [rounds 16 _ (by omega), cipher]
  simp only [Std.Blowfish.P]
  rw [h.P 16 (by omega), h.P 17 (by omega)]
  exact unhexlify_append (hexWord _) (hexWord _)

theorem getD_set2 (l : List α) (a i : Nat) (x y d : α) (ha : a + 1 < l.length) :
    ((l.set a x).set (a + 1) y).getD i d = if i = a then x else if i = a + 1 then y else l.getD i d := by
  simp only [List.getD_eq_getElem?_getD, List.getElem?_set]
  by_cases h1 : i = a
  · subst h1
    simp [show i < l.length by omega]
  · by_cases h2 : i = a + 1
    · subst h2
      simp [ha]
    · simp [h1, h2, Ne.symm h1, Ne.symm h2]

theorem bfRel_stepP {p sbox : List (BitVec 32)} {T : Tables} (h : BfRel p sbox T) (x : BitVec 32 × BitVec 32) (j : Nat)
    (hj : j < 9) : BfRel ((p.set (2 * j) (cipher T x).1).set (2 * j + 1) (cipher T x).2) sbox (replace (T, x) j).1 := by
  refine ⟨by simp [h.plen], h.slen, ?_, ?_⟩
  · intro i hi
    rw [getD_set2 _ _ _ _ _ _ (by rw [h.plen]; omega), h.P i hi]
    rfl
  · intro k b hk hb
    rw [h.S k b hk hb]
    simp only [replace]
    rw [if_neg (by omega), if_neg (by omega)]

theorem bfRel_stepS {p sbox : List (BitVec 32)} {T : Tables} (h : BfRel p sbox T) (x : BitVec 32 × BitVec 32) (j : Nat)
    (hj : j < 512) : BfRel p ((sbox.set (512 * (j / 128) + 2 * (j % 128)) (cipher T x).1).set
      (512 * (j / 128) + 2 * (j % 128) + 1) (cipher T x).2) (replace (T, x) (9 + j)).1 := by
  refine ⟨h.plen, by simp [h.slen], ?_, ?_⟩
  · intro i hi
    rw [h.P i hi]
    simp only [replace]
    rw [if_neg (by omega), if_neg (by omega)]
  · intro k b hk hb
    rw [getD_set2 _ _ _ _ _ _ (by rw [h.slen]; omega), h.S k b hk hb]
    simp only [replace]
    by_cases h1 : 512 * k + b = 512 * (j / 128) + 2 * (j % 128)
    · rw [if_pos h1, if_pos (by omega)]
    · rw [if_neg h1, if_neg (show ¬ 18 + 256 * k + b = 2 * (9 + j) by omega)]
      by_cases h2 : 512 * k + b = 512 * (j / 128) + 2 * (j % 128) + 1
      · rw [if_pos h2, if_pos (by omega)]
      · rw [if_neg h2, if_neg (by omega)]

/-- The octets of a pair of words. -/
def pairOctets (x : BitVec 32 × BitVec 32) : Bytes := be 4 x.1.toNat ++ be 4 x.2.toNat

theorem bfRun_std {o : BfObj} {T : Tables} (ho : o.settingkey = !o.keyset) (h : BfRel o.p o.sbox T) (x : BitVec 32 × BitVec 32) :
    bfRun o (pairOctets x) = .ok (pairOctets (cipher T x)) := by
  rw [bfRun_ready ⟨ho, h.plen⟩ (by simp [pairOctets]), bfCipher_std h, pairOctets, (words_of_be _ _).1, (words_of_be _ _).2]
  rfl

theorem bfFillP_std : ∀ (n x : Nat) (o : BfObj) (T : Tables) (w : BitVec 32 × BitVec 32), x + n ≤ 9 →
    o.settingkey = (!o.keyset) → BfRel o.p o.sbox T →
    ∃ o', bfFillP n x o (pairOctets w) = .ok (o', pairOctets ((List.range' x n).foldl replace (T, w)).2) ∧
      o'.settingkey = o.settingkey ∧ o'.keyset = o.keyset ∧
      BfRel o'.p o'.sbox ((List.range' x n).foldl replace (T, w)).1 := by
  intro n
  induction n with
  | zero => intro x o T w _ ho h; exact ⟨o, rfl, rfl, rfl, h⟩
  | succ n ih =>
    intro x o T w hx ho h
    have hr := bfRun_std ho h w
    have hs := bfRel_stepP h w x (by omega)
    obtain ⟨o', a, b, c, d⟩ := ih (x + 1) { o with p := (o.p.set (2 * x) (cipher T w).1).set (2 * x + 1) (cipher T w).2 }
      (replace (T, w) x).1 (cipher T w) (by omega) ho hs
    refine ⟨o', ?_, b, c, ?_⟩
    · simp only [bfFillP, hr, Out.ok_bind]
      rw [pairOctets, (words_of_be _ _).1, (words_of_be _ _).2]
      exact a
    · exact d

theorem bfFillS_std : ∀ (n x : Nat) (o : BfObj) (T : Tables) (w : BitVec 32 × BitVec 32), x + n ≤ 512 →
    o.settingkey = (!o.keyset) → BfRel o.p o.sbox T →
    ∃ o', bfFillS n x o (pairOctets w) = .ok o' ∧
      BfRel o'.p o'.sbox ((List.range' (9 + x) n).foldl replace (T, w)).1 := by
  intro n
  induction n with
  | zero => intro x o T w _ ho h; exact ⟨o, rfl, h⟩
  | succ n ih =>
    intro x o T w hx ho h
    have hr := bfRun_std ho h w
    have hs := bfRel_stepS h w x (by omega)
    obtain ⟨o', a, d⟩ := ih (x + 1) 
      { o with sbox := (o.sbox.set (512 * (x / 128) + 2 * (x % 128)) (cipher T w).1).set (512 * (x / 128) + 2 * (x % 128) + 1) (cipher T w).2 }
      (replace (T, w) (9 + x)).1 (cipher T w) (by omega) ho hs
    refine ⟨o', ?_, ?_⟩
    · simp only [bfFillS, hr, Out.ok_bind]
      rw [pairOctets, (words_of_be _ _).1, (words_of_be _ _).2]
      exact a
    · exact d

theorem bfSetkey_std (KEY : Bytes) (h4 : 4 ≤ KEY.length) (h56 : KEY.length ≤ 56) :
    ∃ o, blowfish.make KEY = .ok o ∧ o.settingkey = (!o.keyset) ∧ BfRel o.p o.sbox (Std.Blowfish.tables KEY) := by
  simp only [SymCipher.make, blowfish, bfSetkey]
  rw [if_neg (by simp), if_neg (by omega)]
  have h0 : BfRel ((List.range 18).map fun x => bfP.getD x 0 ^^^
      wordAt 32 ((bfDouble (72 / KEY.length + 1) KEY).take 72) (4 * x) 4) bfSBox (Std.Blowfish.start KEY) := by
    refine ⟨by simp, by simp [bfSBox], ?_, ?_⟩
    · intro i hi
      rw [range_getD _ _ _ _ hi, bfTables_pi.1 i hi, bfKey_word KEY (by omega) i hi, Std.Blowfish.start, if_pos hi]
    · intro k b hk hb
      rw [bfTables_pi.2 k b hk hb, Std.Blowfish.start, if_neg (by omega)]
  generalize ((List.range 18).map fun x => bfP.getD x 0 ^^^
      wordAt 32 ((bfDouble (72 / KEY.length + 1) KEY).take 72) (4 * x) 4) = p0 at h0 ⊢
  generalize bfSBox = s0 at h0 ⊢
  obtain ⟨o1, a1, a2, a3, a4⟩ := bfFillP_std 9 0 { keyset := false, settingkey := true, p := p0, sbox := s0 }
    (Std.Blowfish.start KEY) (0, 0) (by omega) rfl h0
  rw [show pairOctets (0, 0) = List.replicate 8 0 from by decide +kernel] at a1
  rw [a1, Out.ok_bind]
  obtain ⟨o2, b1, b2⟩ := bfFillS_std 512 0 o1 _ ((List.range' 0 9).foldl replace (Std.Blowfish.start KEY, (0, 0))).2 (by omega)
    (by rw [a2, a3]; rfl) a4
  simp only [b1, Out.ok_bind]
  refine ⟨_, rfl, rfl, ?_⟩
  have e : (List.range' (9 + 0) 512).foldl replace (((List.range' 0 9).foldl replace (Std.Blowfish.start KEY, (0, 0))).1,
      ((List.range' 0 9).foldl replace (Std.Blowfish.start KEY, (0, 0))).2) =
      (List.range 521).foldl replace (Std.Blowfish.start KEY, (0, 0)) := by
    rw [List.range_eq_range', show (521 : Nat) = 9 + 512 from rfl, ← List.range'_append_1, List.foldl_append]
  rw [e] at b2
  exact b2

theorem blowfish_std (KEY : Bytes) (h4 : 4 ≤ KEY.length) (h56 : KEY.length ≤ 56) :
    ∃ o, blowfish.make KEY = .ok o ∧ ∀ b, b.length = 8 → (blowfish.encrypt o b).2 = .ok (Std.Blowfish.encrypt KEY b) := by
  obtain ⟨o, ho, hs, h⟩ := bfSetkey_std KEY h4 h56
  refine ⟨o, ho, ?_⟩
  intro b hb
  simp only [blowfish]
  rw [bfRun_ready ⟨hs, h.plen⟩ hb, bfCipher_std h, Std.Blowfish.encrypt, be4_bf, be4_bf,
    blockWord b hb 0 (by omega), blockWord b hb 4 (by omega)]

end OpenPGP
