import Verif.Lemmas.Camellia
import Verif.Lemmas.OctetBits
import Verif.Spec.Camellia

/-! `src/Encryptions/Camellia.cpp` computes the function of RFC 3713. -/
namespace OpenPGP
open Std.Camellia (s1 s2 s3 s4)

theorem camS_std : ∀ i : BitVec 8, camS i = s1 i := by decide +kernel

theorem camSBOX_std (v : UInt8) : (camSBOX 1 v).toBitVec = s1 v.toBitVec ∧ (camSBOX 2 v).toBitVec = s2 v.toBitVec ∧
    (camSBOX 3 v).toBitVec = s3 v.toBitVec ∧ (camSBOX 4 v).toBitVec = s4 v.toBitVec := by
  have r1 : ∀ x : BitVec 8, rol x 1 8 = x.rotateLeft 1 := fun x => rol_eq (by norm_num) x 1 (by omega) (by omega)
  have r7 : ∀ x : BitVec 8, rol x 7 8 = x.rotateLeft 7 := fun x => rol_eq (by norm_num) x 7 (by omega) (by omega)
  simp only [camSBOX, s2, s3, s4, camS_std, r1, r7]
  exact ⟨rfl, rfl, rfl, rfl⟩

theorem bvOf_rol (n m : Nat) (s : Bytes) (r : Nat) (_hn : n = 4 ∨ n = 16) (hs : s.length = n) (hm : 8 * n = m) (hr : r < m) :
    bvOf m (rolString s r) = (bvOf m s).rotateLeft r := by
  have hl : (rolString s r).length = n := by rw [rolString_len _ _ (by omega), hs]
  have hout : ∀ i, i < n → (((s ++ s).drop (r >>> 3)).take s.length).getD i 0 =
      s.getD (if i + r / 8 < n then i + r / 8 else i + r / 8 - n) 0 := by
    intro i hi
    rw [List.getD, List.getElem?_take, if_pos (by omega), List.getElem?_drop, ← List.getD, Nat.shiftRight_eq_div_pow,
      show 2 ^ 3 = 8 from rfl, Nat.add_comm]
    split
    · rw [List.getD_append _ _ _ _ (by omega)]
    · rw [List.getD_append_right _ _ _ _ (by omega), hs]
  have hol : (((s ++ s).drop (r >>> 3)).take s.length).length = n := by
    rw [Nat.shiftRight_eq_div_pow]; simp; omega
  have hget : ∀ i j, i < n → j < 8 → ((rolString s r).getD i 0).toBitVec.getLsbD j =
      if r % 8 ≤ j then (s.getD (if i + r / 8 < n then i + r / 8 else i + r / 8 - n) 0).toBitVec.getLsbD (j - r % 8)
      else (s.getD (if i + 1 + r / 8 < n then i + 1 + r / 8 else i + 1 + r / 8 - n) 0).toBitVec.getLsbD (j + 8 - r % 8) := by
    intro i j hi hj
    have hand : r &&& 7 = r % 8 := Nat.and_two_pow_sub_one_eq_mod r 3
    unfold rolString
    rw [if_neg (by omega)]
    simp only [hand, hol]
    by_cases h0 : r % 8 = 0
    · rw [if_pos h0, hout i hi, h0, if_pos (Nat.zero_le j), Nat.sub_zero]
    · rw [if_neg h0]
      rw [List.getD, List.getElem?_map, List.getElem?_range hi, Option.map_some, Option.getD_some, hout i hi]
      have hi1 : (i + 1) % n < n := Nat.mod_lt _ (by omega)
      rw [hout _ hi1]
      have hidx : (if (i + 1) % n + r / 8 < n then (i + 1) % n + r / 8 else (i + 1) % n + r / 8 - n) =
          if i + 1 + r / 8 < n then i + 1 + r / 8 else i + 1 + r / 8 - n := by
        by_cases h : i + 1 < n
        · rw [Nat.mod_eq_of_lt h]
        · rw [show i + 1 = n by omega, Nat.mod_self]
          split <;> split <;> omega
      rw [hidx]
      generalize (s.getD (if i + r / 8 < n then i + r / 8 else i + r / 8 - n) 0) = x
      generalize (s.getD (if i + 1 + r / 8 < n then i + 1 + r / 8 else i + 1 + r / 8 - n) 0) = y
      have h8 : r % 8 < 8 := Nat.mod_lt _ (by omega)
      generalize r % 8 = k at *
      have hk : ∀ k, k < 8 → k ≠ 0 → ∀ x y : UInt8, ∀ j, j < 8 →
          (x <<< UInt8.ofNat k ||| y >>> UInt8.ofNat (8 - k)).toBitVec.getLsbD j =
            if k ≤ j then x.toBitVec.getLsbD (j - k) else y.toBitVec.getLsbD (j + 8 - k) := by
        intro k hk hk0 x y j hj
        have e1 : (UInt8.ofNat k).toNat % 8 = k := by
          rw [UInt8.toNat_ofNat']; omega
        have e2 : (UInt8.ofNat (8 - k)).toNat % 8 = 8 - k := by
          rw [UInt8.toNat_ofNat']; omega
        have e1' : (UInt8.ofNat k).toBitVec.toNat % 8 = k := e1
        have e2' : (UInt8.ofNat (8 - k)).toBitVec.toNat % 8 = 8 - k := e2
        simp only [UInt8.toBitVec_or, UInt8.toBitVec_shiftLeft, UInt8.toBitVec_shiftRight, BitVec.getLsbD_or,
          BitVec.shiftLeft_eq', BitVec.ushiftRight_eq', BitVec.toNat_umod, BitVec.getLsbD_shiftLeft,
          BitVec.getLsbD_ushiftRight]
        simp only [show (8 : BitVec 8).toNat = 8 from rfl, e1', e2']
        by_cases h : k ≤ j
        · rw [if_pos h]
          have h1 : ¬ j < k := by omega
          rw [BitVec.getLsbD_of_ge y.toBitVec _ (by omega)]
          simp [hj, h1]
        · rw [if_neg h]
          have h1 : j < k := by omega
          simp only [h1, decide_true, Bool.not_true, Bool.and_false, Bool.false_and, Bool.false_or]
          congr 1; omega
      exact hk k h8 h0 x y j hj
  apply BitVec.eq_of_getLsbD_eq
  intro p hp
  rw [bvOf_getLsbD _ _ (by omega) _ hp, hl, hget _ _ (by omega) (by omega), BitVec.getLsbD_rotateLeft,
    Nat.mod_eq_of_lt hr]
  by_cases h : p < r
  · simp only [h, decide_true, cond_true]
    rw [bvOf_getLsbD _ _ (by omega) _ (by omega), hs]
    by_cases h2 : r % 8 ≤ p % 8
    · rw [if_pos h2]
      rw [show (if n - 1 - p / 8 + r / 8 < n then n - 1 - p / 8 + r / 8 else n - 1 - p / 8 + r / 8 - n) =
        n - 1 - (m - r + p) / 8 by split <;> omega, show p % 8 - r % 8 = (m - r + p) % 8 by omega]
    · rw [if_neg h2]
      rw [show (if n - 1 - p / 8 + 1 + r / 8 < n then n - 1 - p / 8 + 1 + r / 8 else n - 1 - p / 8 + 1 + r / 8 - n) =
        n - 1 - (m - r + p) / 8 by split <;> omega, show p % 8 + 8 - r % 8 = (m - r + p) % 8 by omega]
  · simp only [h, hp, decide_true, decide_false, cond_false, Bool.true_and]
    rw [bvOf_getLsbD _ _ (by omega) _ (by omega), hs]
    by_cases h2 : r % 8 ≤ p % 8
    · rw [if_pos h2]
      rw [show (if n - 1 - p / 8 + r / 8 < n then n - 1 - p / 8 + r / 8 else n - 1 - p / 8 + r / 8 - n) =
        n - 1 - (p - r) / 8 by split <;> omega, show p % 8 - r % 8 = (p - r) % 8 by omega]
    · rw [if_neg h2]
      rw [show (if n - 1 - p / 8 + 1 + r / 8 < n then n - 1 - p / 8 + 1 + r / 8 else n - 1 - p / 8 + 1 + r / 8 - n) =
        n - 1 - (p - r) / 8 by split <;> omega, show p % 8 + 8 - r % 8 = (p - r) % 8 by omega]

theorem bvOf_eight (a b c d e f g h : UInt8) : bvOf 64 [a, b, c, d, e, f, g, h] =
    a.toBitVec ++ b.toBitVec ++ c.toBitVec ++ d.toBitVec ++ e.toBitVec ++ f.toBitVec ++ g.toBitVec ++ h.toBitVec := by
  have := bvOf_append 56 8 64 [a, b, c, d, e, f, g] [h] rfl rfl rfl
  rw [List.cons_append, List.cons_append, List.cons_append, List.cons_append, List.cons_append, List.cons_append,
    List.cons_append, List.nil_append] at this
  rw [this, BitVec.cast_eq, bvOf_octet]
  have := bvOf_append 48 8 56 [a, b, c, d, e, f] [g] rfl rfl rfl
  simp only [List.cons_append, List.nil_append] at this
  rw [this, BitVec.cast_eq, bvOf_octet]
  have := bvOf_append 40 8 48 [a, b, c, d, e] [f] rfl rfl rfl
  simp only [List.cons_append, List.nil_append] at this
  rw [this, BitVec.cast_eq, bvOf_octet]
  have := bvOf_append 32 8 40 [a, b, c, d] [e] rfl rfl rfl
  simp only [List.cons_append, List.nil_append] at this
  rw [this, BitVec.cast_eq, bvOf_octet]
  have := bvOf_append 24 8 32 [a, b, c] [d] rfl rfl rfl
  simp only [List.cons_append, List.nil_append] at this
  rw [this, BitVec.cast_eq, bvOf_octet]
  have := bvOf_append 16 8 24 [a, b] [c] rfl rfl rfl
  simp only [List.cons_append, List.nil_append] at this
  rw [this, BitVec.cast_eq, bvOf_octet]
  have := bvOf_append 8 8 16 [a] [b] rfl rfl rfl
  simp only [List.cons_append, List.nil_append] at this
  rw [this, BitVec.cast_eq, bvOf_octet, bvOf_octet]

/-- Eight octets and the word they are. -/
def W64 (a : Bytes) (A : BitVec 64) : Prop := a.length = 8 ∧ bvOf 64 a = A

theorem camF_std {x k : Bytes} {X K : BitVec 64} (hx : W64 x X) (hk : W64 k K) : W64 (camF x k) (Std.Camellia.F X K) := by
  obtain ⟨lx, rfl⟩ := hx
  obtain ⟨lk, rfl⟩ := hk
  refine ⟨camF_len _ _, ?_⟩
  have hl : (xorStrings x k).length = 8 := by rw [xorS_len]; omega
  unfold camF Std.Camellia.F
  simp only
  rw [← bvOf_xor 64 x k (by omega) (by omega)]
  set y := xorStrings x k with hy
  have a0 := bvOf_at 64 y 0 (by omega) (by omega)
  have a1 := bvOf_at 64 y 1 (by omega) (by omega)
  have a2 := bvOf_at 64 y 2 (by omega) (by omega)
  have a3 := bvOf_at 64 y 3 (by omega) (by omega)
  have a4 := bvOf_at 64 y 4 (by omega) (by omega)
  have a5 := bvOf_at 64 y 5 (by omega) (by omega)
  have a6 := bvOf_at 64 y 6 (by omega) (by omega)
  have a7 := bvOf_at 64 y 7 (by omega) (by omega)
  simp only [Nat.reduceMul, Nat.reduceSub] at a0 a1 a2 a3 a4 a5 a6 a7
  rw [a0, a1, a2, a3, a4, a5, a6, a7, bvOf_eight]
  have t := fun v => camSBOX_std v
  simp only [UInt8.toBitVec_xor, (t _).1, (t _).2.1, (t _).2.2.1, (t _).2.2.2]

theorem W64_xor {a b : Bytes} {A B : BitVec 64} (ha : W64 a A) (hb : W64 b B) : W64 (xorStrings a b) (A ^^^ B) := by
  obtain ⟨la, rfl⟩ := ha
  obtain ⟨lb, rfl⟩ := hb
  exact ⟨by rw [xorS_len]; omega, bvOf_xor 64 a b (by omega) (by omega)⟩

/-- Both halves. -/
def W2 (d : Bytes × Bytes) (D : BitVec 64 × BitVec 64) : Prop := W64 d.1 D.1 ∧ W64 d.2 D.2

theorem W2_mk {a b : Bytes} {A B : BitVec 64} (ha : W64 a A) (hb : W64 b B) : W2 (a, b) (A, B) := ⟨ha, hb⟩

theorem camTwo_std {d : Bytes × Bytes} {D : BitVec 64 × BitVec 64} {a b : Bytes} {A B : BitVec 64}
    (hd : W2 d D) (ha : W64 a A) (hb : W64 b B) : W2 (camTwo d a b) (Std.Camellia.two D A B) := by
  have h2 := W64_xor hd.2 (camF_std hd.1 ha)
  exact ⟨W64_xor hd.1 (camF_std h2 hb), h2⟩

theorem camFL_std {x k : Bytes} {X K : BitVec 64} (hx : W64 x X) (hk : W64 k K) :
    W64 (camFL x k) (Std.Camellia.FL X K) ∧ W64 (camFLINV x k) (Std.Camellia.FLinv X K) := by
  obtain ⟨lx, rfl⟩ := hx
  obtain ⟨lk, rfl⟩ := hk
  have x1 := bvOf_piece 64 32 x 0 4 (by omega) rfl (by omega)
  have x2 := bvOf_piece 64 32 x 4 4 (by omega) rfl (by omega)
  have k1 := bvOf_piece 64 32 k 0 4 (by omega) rfl (by omega)
  have k2 := bvOf_piece 64 32 k 4 4 (by omega) rfl (by omega)
  norm_num at x1 x2 k1 k2
  have l1 : (x.take 4).length = 4 := by simp; omega
  have l2 : ((x.drop 4).take 4).length = 4 := by simp; omega
  have m1 : (k.take 4).length = 4 := by simp; omega
  have m2 : ((k.drop 4).take 4).length = 4 := by simp; omega
  refine ⟨⟨camFL_len _ _ lx lk, ?_⟩, ⟨camFLINV_len _ _ lx lk, ?_⟩⟩
  · unfold camFL Std.Camellia.FL
    simp only
    rw [← x1, ← x2, ← k1, ← k2]
    have la : (andStrings (x.take 4) (k.take 4)).length = 4 := by rw [andS_len]; omega
    have lr : (rolString (andStrings (x.take 4) (k.take 4)) 1).length = 4 := by rw [rolString_len _ _ (by simp), la]
    rw [← bvOf_and 32 _ _ (by omega) (by omega), ← bvOf_rol 4 32 _ 1 (by omega) la rfl (by omega),
      ← bvOf_xor 32 _ _ (by omega) (by omega), ← bvOf_or 32 _ _ (by rw [xorS_len]; omega) (by omega),
      ← bvOf_xor 32 _ _ (by omega) (by rw [orS_len, xorS_len]; omega)]
    rw [bvOf_append 32 32 64 _ _ (by rw [xorS_len, orS_len, xorS_len]; omega) (by rw [xorS_len]; omega) rfl]
    rfl
  · unfold camFLINV Std.Camellia.FLinv
    simp only
    rw [← x1, ← x2, ← k1, ← k2]
    rw [← bvOf_or 32 _ _ (by omega) (by omega), ← bvOf_xor 32 _ _ (by omega) (by rw [orS_len]; omega)]
    set y1 := xorStrings (x.take 4) (orStrings ((x.drop 4).take 4) ((k.drop 4).take 4)) with hy1
    have ly : y1.length = 4 := by rw [hy1, xorS_len, orS_len]; omega
    have la : (andStrings y1 (k.take 4)).length = 4 := by rw [andS_len]; omega
    have lr : (rolString (andStrings y1 (k.take 4)) 1).length = 4 := by rw [rolString_len _ _ (by simp), la]
    rw [← bvOf_and 32 _ _ (by omega) (by omega), ← bvOf_rol 4 32 _ 1 (by omega) la rfl (by omega),
      ← bvOf_xor 32 _ _ (by omega) (by omega)]
    rw [bvOf_append 32 32 64 _ _ (by omega) (by rw [xorS_len]; omega) rfl]
    rfl

theorem camFLs_std {d : Bytes × Bytes} {D : BitVec 64 × BitVec 64} {a b : Bytes} {A B : BitVec 64}
    (hd : W2 d D) (ha : W64 a A) (hb : W64 b B) : W2 (camFLs d a b) (Std.Camellia.layer A B D) :=
  ⟨(camFL_std hd.1 ha).1, (camFL_std hd.2 hb).2⟩

/-- Sixteen octets and the word they are. -/
def W128 (a : Bytes) (A : BitVec 128) : Prop := a.length = 16 ∧ bvOf 128 a = A

theorem W128_left {a : Bytes} {A : BitVec 128} (h : W128 a A) : W64 (a.take 8) (Std.Camellia.left A) := by
  obtain ⟨l, rfl⟩ := h
  refine ⟨by simp; omega, ?_⟩
  have := bvOf_piece 128 64 a 0 8 (by omega) rfl (by omega)
  norm_num at this
  exact this

theorem W128_right {a : Bytes} {A : BitVec 128} (h : W128 a A) : W64 ((a.drop 8).take 8) (Std.Camellia.right A) := by
  obtain ⟨l, rfl⟩ := h
  refine ⟨by simp; omega, ?_⟩
  have := bvOf_piece 128 64 a 8 8 (by omega) rfl (by omega)
  norm_num at this
  exact this

theorem W128_rol {a : Bytes} {A : BitVec 128} (h : W128 a A) (r : Nat) (hr : r < 128) :
    W128 (rolString a r) (A.rotateLeft r) := by
  obtain ⟨l, rfl⟩ := h
  exact ⟨by rw [rolString_len _ _ (by omega), l], bvOf_rol 16 128 a r (by omega) l rfl hr⟩

theorem W128_rol0 {a : Bytes} {A : BitVec 128} (h : W128 a A) : W128 (rolString a 0) A := by
  have := W128_rol h 0 (by omega)
  have hz : A.rotateLeft 0 = A := by
    apply BitVec.eq_of_getLsbD_eq
    intro j hj
    rw [BitVec.getLsbD_rotateLeft]
    simp [hj]
  rwa [hz] at this

theorem W128_xor {a b : Bytes} {A B : BitVec 128} (ha : W128 a A) (hb : W128 b B) : W128 (xorStrings a b) (A ^^^ B) := by
  obtain ⟨la, rfl⟩ := ha
  obtain ⟨lb, rfl⟩ := hb
  exact ⟨by rw [xorS_len]; omega, bvOf_xor 128 a b (by omega) (by omega)⟩

theorem W128_join {a b : Bytes} {A B : BitVec 64} (ha : W64 a A) (hb : W64 b B) : W128 (a ++ b) (A ++ B) := by
  obtain ⟨la, rfl⟩ := ha
  obtain ⟨lb, rfl⟩ := hb
  refine ⟨by rw [List.length_append]; omega, ?_⟩
  rw [bvOf_append 64 64 128 _ _ (by omega) (by omega) rfl]
  rfl

theorem W128_split {a : Bytes} {A : BitVec 128} (h : W128 a A) :
    W2 (a.take 8, (a.drop 8).take 8) (Std.Camellia.left A, Std.Camellia.right A) := ⟨W128_left h, W128_right h⟩

theorem camSigma_std : W64 (camSigma.getD 0 []) 0xA09E667F3BCC908B ∧ W64 (camSigma.getD 1 []) 0xB67AE8584CAA73B2 ∧
    W64 (camSigma.getD 2 []) 0xC6EF372FE94F82BE ∧ W64 (camSigma.getD 3 []) 0x54FF53A5F1D36F1C ∧
    W64 (camSigma.getD 4 []) 0x10E527FADE682D1D ∧ W64 (camSigma.getD 5 []) 0xB05688C2B3E6C1FD := by
  refine ⟨⟨rfl, ?_⟩, ⟨rfl, ?_⟩, ⟨rfl, ?_⟩, ⟨rfl, ?_⟩, ⟨rfl, ?_⟩, ⟨rfl, ?_⟩⟩ <;> decide +kernel

theorem camBlock128_std (KL KR KA KB b : Bytes) (L A M : BitVec 128) (hL : W128 KL L) (hA : W128 KA A) (hM : W128 b M) :
    W128 (camBlock 16 (camKeys 16 KL KR KA KB) b) (Std.Camellia.crypt128 L A M) := by
  unfold camBlock camKeys Std.Camellia.crypt128 Std.Camellia.six
  simp only [if_true, List.getD_cons_zero, List.getD_cons_succ, Nat.reduceAdd, Std.Camellia.kw128, Std.Camellia.k128,
    Std.Camellia.ke128]
  have l := fun r (hr : r < 128) => W128_left (W128_rol hL r hr)
  have r := fun r (hr : r < 128) => W128_right (W128_rol hL r hr)
  have al := fun r (hr : r < 128) => W128_left (W128_rol hA r hr)
  have ar := fun r (hr : r < 128) => W128_right (W128_rol hA r hr)
  have e := W2_mk (W64_xor (W128_left hM) (W128_left (W128_rol0 hL))) (W64_xor (W128_right hM) (W128_right (W128_rol0 hL)))
  have e := camTwo_std e (W128_left (W128_rol0 hA)) (W128_right (W128_rol0 hA))
  have e := camTwo_std e (l 15 (by omega)) (r 15 (by omega))
  have e := camTwo_std e (al 15 (by omega)) (ar 15 (by omega))
  have e := camFLs_std e (al 30 (by omega)) (ar 30 (by omega))
  have e := camTwo_std e (l 45 (by omega)) (r 45 (by omega))
  have e := camTwo_std e (al 45 (by omega)) (r 60 (by omega))
  have e := camTwo_std e (al 60 (by omega)) (ar 60 (by omega))
  have e := camFLs_std e (l 77 (by omega)) (r 77 (by omega))
  have e := camTwo_std e (l 94 (by omega)) (r 94 (by omega))
  have e := camTwo_std e (al 94 (by omega)) (ar 94 (by omega))
  have e := camTwo_std e (l 111 (by omega)) (r 111 (by omega))
  exact W128_join (W64_xor e.2 (al 111 (by omega))) (W64_xor e.1 (ar 111 (by omega)))

theorem camBlock256_std (n : Nat) (hn : n ≠ 16) (KL KR KA KB b : Bytes) (L R A B M : BitVec 128) (hL : W128 KL L)
    (hR : W128 KR R) (hA : W128 KA A) (hB : W128 KB B) (hM : W128 b M) :
    W128 (camBlock n (camKeys n KL KR KA KB) b) (Std.Camellia.crypt256 L R A B M) := by
  unfold camBlock camKeys Std.Camellia.crypt256 Std.Camellia.six
  simp only [hn, if_false, List.getD_cons_zero, List.getD_cons_succ, Nat.reduceAdd, Std.Camellia.kw256, Std.Camellia.k256,
    Std.Camellia.ke256]
  have l := fun r (hr : r < 128) => W128_left (W128_rol hL r hr)
  have r := fun r (hr : r < 128) => W128_right (W128_rol hL r hr)
  have al := fun r (hr : r < 128) => W128_left (W128_rol hA r hr)
  have ar := fun r (hr : r < 128) => W128_right (W128_rol hA r hr)
  have bl := fun r (hr : r < 128) => W128_left (W128_rol hB r hr)
  have br := fun r (hr : r < 128) => W128_right (W128_rol hB r hr)
  have rl := fun r (hr : r < 128) => W128_left (W128_rol hR r hr)
  have rr := fun r (hr : r < 128) => W128_right (W128_rol hR r hr)
  have e := W2_mk (W64_xor (W128_left hM) (W128_left (W128_rol0 hL))) (W64_xor (W128_right hM) (W128_right (W128_rol0 hL)))
  have e := camTwo_std e (W128_left (W128_rol0 hB)) (W128_right (W128_rol0 hB))
  have e := camTwo_std e (rl 15 (by omega)) (rr 15 (by omega))
  have e := camTwo_std e (al 15 (by omega)) (ar 15 (by omega))
  have e := camFLs_std e (rl 30 (by omega)) (rr 30 (by omega))
  have e := camTwo_std e (bl 30 (by omega)) (br 30 (by omega))
  have e := camTwo_std e (l 45 (by omega)) (r 45 (by omega))
  have e := camTwo_std e (al 45 (by omega)) (ar 45 (by omega))
  have e := camFLs_std e (l 60 (by omega)) (r 60 (by omega))
  have e := camTwo_std e (rl 60 (by omega)) (rr 60 (by omega))
  have e := camTwo_std e (bl 60 (by omega)) (br 60 (by omega))
  have e := camTwo_std e (l 77 (by omega)) (r 77 (by omega))
  have e := camFLs_std e (al 77 (by omega)) (ar 77 (by omega))
  have e := camTwo_std e (rl 94 (by omega)) (rr 94 (by omega))
  have e := camTwo_std e (al 94 (by omega)) (ar 94 (by omega))
  have e := camTwo_std e (l 111 (by omega)) (r 111 (by omega))
  exact W128_join (W64_xor e.2 (bl 111 (by omega))) (W64_xor e.1 (br 111 (by omega)))

theorem camKA_std {KL KR : Bytes} {L R : BitVec 128} (hL : W128 KL L) (hR : W128 KR R) (d1 d2 d3 : Bytes × Bytes)
    (e1 : d1 = camTwo ((xorStrings KL KR).take 8, ((xorStrings KL KR).drop 8).take 8) (camSigma.getD 0 [])
        (camSigma.getD 1 []))
    (e2 : d2 = camTwo (xorStrings d1.1 (KL.take 8), xorStrings d1.2 ((KL.drop 8).take 8)) (camSigma.getD 2 [])
        (camSigma.getD 3 []))
    (e3 : d3 = camTwo ((xorStrings (d2.1 ++ d2.2) KR).take 8, ((xorStrings (d2.1 ++ d2.2) KR).drop 8).take 8)
        (camSigma.getD 4 []) (camSigma.getD 5 [])) :
    W128 (d2.1 ++ d2.2) (Std.Camellia.KA L R) ∧ W128 (d3.1 ++ d3.2) (Std.Camellia.KB L R) := by
  obtain ⟨g0, g1, g2, g3, g4, g5⟩ := camSigma_std
  have a1 := camTwo_std (W128_split (W128_xor hL hR)) g0 g1
  rw [← e1] at a1
  have a2 := camTwo_std (W2_mk (W64_xor a1.1 (W128_left hL)) (W64_xor a1.2 (W128_right hL))) g2 g3
  rw [← e2] at a2
  have hA : W128 (d2.1 ++ d2.2) (Std.Camellia.KA L R) := W128_join a2.1 a2.2
  have a3 := camTwo_std (W128_split (W128_xor hA hR)) g4 g5
  rw [← e3] at a3
  exact ⟨hA, W128_join a3.1 a3.2⟩

theorem camKeyLeft_std (KEY : Bytes) (h : 16 ≤ KEY.length) (KL : Bytes)
    (e : KL = if KEY.length = 16 then KEY else KEY.take 16) : W128 KL (Std.Camellia.keyLeft KEY) := by
  rw [e]
  have : (if KEY.length = 16 then KEY else KEY.take 16) = KEY.take 16 := by
    split
    · rw [List.take_of_length_le (by omega)]
    · rfl
  rw [this]
  exact ⟨by simp; omega, rfl⟩

theorem camKeyRight_std (KEY : Bytes) (h : KEY.length = 16 ∨ KEY.length = 24 ∨ KEY.length = 32) (KR : Bytes)
    (e : KR = if KEY.length = 16 then List.replicate 16 0
      else if KEY.length = 24 then
        (KEY.drop 16).take 8 ++ xorStrings ((KEY.drop 16).take 8) (List.replicate 8 0xff)
      else (KEY.drop 16).take 16) : W128 KR (Std.Camellia.keyRight KEY) := by
  rw [e]
  unfold Std.Camellia.keyRight
  by_cases h16 : KEY.length = 16
  · rw [if_pos h16, if_pos h16]
    exact ⟨rfl, by decide +kernel⟩
  rw [if_neg h16, if_neg h16]
  by_cases h24 : KEY.length = 24
  · rw [if_pos h24, if_pos h24, List.take_of_length_le (by simp; omega)]
    have hr : W64 (KEY.drop 16) (BitVec.ofNat 64 (num (KEY.drop 16))) := ⟨by simp; omega, rfl⟩
    have hf : W64 (List.replicate 8 0xff) (BitVec.allOnes 64) := ⟨rfl, by decide +kernel⟩
    have := W128_join hr (W64_xor hr hf)
    rwa [BitVec.xor_allOnes] at this
  · rw [if_neg h24, if_neg h24, List.take_of_length_le (by simp; omega)]
    exact ⟨by simp; omega, rfl⟩

theorem W128_octets {o : Bytes} {O : BitVec 128} (h : W128 o O) : o = be 16 O.toNat := by
  obtain ⟨hl, rfl⟩ := h
  exact (be_bvOf 128 16 o hl rfl).symm

theorem camMake_std (KEY : Bytes) (h : KEY.length = 16 ∨ KEY.length = 24 ∨ KEY.length = 32) :
    ∃ KL KR KA KB, camellia.make KEY = .ok ⟨true, KEY.length, camKeys KEY.length KL KR KA KB⟩ ∧
      W128 KL (Std.Camellia.keyLeft KEY) ∧ W128 KR (Std.Camellia.keyRight KEY) ∧
      W128 KA (Std.Camellia.KA (Std.Camellia.keyLeft KEY) (Std.Camellia.keyRight KEY)) ∧
      W128 KB (Std.Camellia.KB (Std.Camellia.keyLeft KEY) (Std.Camellia.keyRight KEY)) := by
  have hmod : KEY.length % 65536 = KEY.length := Nat.mod_eq_of_lt (by omega)
  have hL := camKeyLeft_std KEY (by omega) _ rfl
  have hR := camKeyRight_std KEY h _ rfl
  have hK := camKA_std hL hR _ _ _ rfl rfl rfl
  refine ⟨_, _, _, _, ?_, hL, hR, hK.1, hK.2⟩
  simp only [SymCipher.make, camellia, camSetkey, hmod]
  rw [if_neg (by simp), if_neg (by omega), List.nil_append]

theorem camellia_std (KEY : Bytes) (h : KEY.length = 16 ∨ KEY.length = 24 ∨ KEY.length = 32) :
    ∃ o, camellia.make KEY = .ok o ∧ ∀ b : Bytes, b.length = 16 →
      (camellia.encrypt o b).2 = .ok (Std.Camellia.encrypt KEY b) := by
  obtain ⟨KL, KR, KA, KB, hmake, hL, hR, hA, hB⟩ := camMake_std KEY h
  refine ⟨_, hmake, ?_⟩
  intro b hb
  have hM : W128 b (Std.Camellia.word b) := ⟨hb, rfl⟩
  simp only [camellia, camRun, hb, Bool.not_true, Bool.false_eq_true, if_false, ne_eq, not_true]
  congr 1
  rw [Std.Camellia.encrypt]
  refine W128_octets ?_
  by_cases h16 : KEY.length = 16
  · rw [if_pos h16, h16]
    exact camBlock128_std _ _ _ _ _ _ _ _ hL hA hM
  · rw [if_neg h16]
    exact camBlock256_std _ h16 _ _ _ _ _ _ _ _ _ _ hL hR hA hB hM

end OpenPGP
