import Verif.Lemmas.Cast128
import Verif.Lemmas.BlowfishStd
import Verif.Spec.Cast128

/-! `src/Encryptions/CAST128.cpp` computes CAST-128 with the tables of `CAST_Const.h` and `CAST128_Const.h`. -/
namespace OpenPGP
open Std.Cast128 (b w o zOf xOf sub half)

/-- The tables of the code. -/
def castSBoxes : Std.Cast128.SBoxes := fun i =>
  if i = 1 then castS1 else if i = 2 then castS2 else if i = 3 then castS3 else if i = 4 then castS4
  else if i = 5 then castS5 else if i = 6 then castS6 else if i = 7 then castS7 else castS8

/-- Sixteen octets of a number of 128 bits. -/
def oct16 (x : BitVec 128) : Octets16 :=
  ⟨b x 0, b x 1, b x 2, b x 3, b x 4, b x 5, b x 6, b x 7, b x 8, b x 9, b x 10, b x 11, b x 12, b x 13, b x 14, b x 15⟩

theorem cast_o (x : BitVec 32) (i : Nat) : octetOf x (3 - i) = o x i := by rw [octetOf_std]; rfl

theorem pack_w (x : BitVec 128) (i : Nat) (hi : i < 4) :
    packWord (b x (4 * i)) (b x (4 * i + 1)) (b x (4 * i + 2)) (b x (4 * i + 3)) = w x i := by
  rw [packWord_std]
  apply BitVec.eq_of_getLsbD_eq
  intro j hj
  simp only [Std.Twofish.ofBytes, b, w, BitVec.getLsbD_append, BitVec.getLsbD_extractLsb']
  interval_cases i <;> split_ifs <;> simp only [hj, decide_true, Bool.true_and] <;>
    (rw [decide_eq_true (by omega), Bool.true_and]; try (congr 1 <;> omega))

theorem b_append (w0 w1 w2 w3 : BitVec 32) (i k : Nat) (hk : k < 4) :
    (i = 0 → b (w0 ++ w1 ++ w2 ++ w3) (4 * i + k) = o w0 k) ∧ (i = 1 → b (w0 ++ w1 ++ w2 ++ w3) (4 * i + k) = o w1 k) ∧
    (i = 2 → b (w0 ++ w1 ++ w2 ++ w3) (4 * i + k) = o w2 k) ∧ (i = 3 → b (w0 ++ w1 ++ w2 ++ w3) (4 * i + k) = o w3 k) := by
  refine ⟨?_, ?_, ?_, ?_⟩ <;> rintro rfl <;> apply BitVec.eq_of_getLsbD_eq <;> intro j hj <;>
    simp only [b, o, BitVec.getLsbD_append, BitVec.getLsbD_extractLsb', hj, decide_true, Bool.true_and] <;>
    split_ifs <;> first | omega | (congr 1; omega)

theorem castZ_std (x : BitVec 128) : castZ (oct16 x) = oct16 (zOf castSBoxes x) := by
  have p0 := pack_w x 0 (by omega)
  have p1 := pack_w x 1 (by omega)
  have p2 := pack_w x 2 (by omega)
  have p3 := pack_w x 3 (by omega)
  simp only [Nat.reduceMul, Nat.reduceAdd] at p0 p1 p2 p3
  have o0 := fun v => cast_o v 3
  have o1 := fun v => cast_o v 2
  have o2 := fun v => cast_o v 1
  have o3 := fun v => cast_o v 0
  simp only [Nat.reduceSub] at o0 o1 o2 o3
  simp only [castZ, oct16, zOf, p0, p1, p2, p3, o0, o1, o2, o3]
  simp only [castSBoxes, OfNat.ofNat_ne_one, if_false, if_true, Nat.reduceEqDiff]
  generalize w x 0 ^^^ _ ^^^ _ ^^^ _ ^^^ _ ^^^ _ = w0
  generalize w x 2 ^^^ _ ^^^ _ ^^^ _ ^^^ _ ^^^ _ = w1
  generalize w x 3 ^^^ _ ^^^ _ ^^^ _ ^^^ _ ^^^ _ = w2
  generalize w x 1 ^^^ _ ^^^ _ ^^^ _ ^^^ _ ^^^ _ = w3
  have q := b_append w0 w1 w2 w3
  congr 1
  · exact ((q 0 0 (by omega)).1 rfl).symm
  · exact ((q 0 1 (by omega)).1 rfl).symm
  · exact ((q 0 2 (by omega)).1 rfl).symm
  · exact ((q 0 3 (by omega)).1 rfl).symm
  · exact ((q 1 0 (by omega)).2.1 rfl).symm
  · exact ((q 1 1 (by omega)).2.1 rfl).symm
  · exact ((q 1 2 (by omega)).2.1 rfl).symm
  · exact ((q 1 3 (by omega)).2.1 rfl).symm
  · exact ((q 2 0 (by omega)).2.2.1 rfl).symm
  · exact ((q 2 1 (by omega)).2.2.1 rfl).symm
  · exact ((q 2 2 (by omega)).2.2.1 rfl).symm
  · exact ((q 2 3 (by omega)).2.2.1 rfl).symm
  · exact ((q 3 0 (by omega)).2.2.2 rfl).symm
  · exact ((q 3 1 (by omega)).2.2.2 rfl).symm
  · exact ((q 3 2 (by omega)).2.2.2 rfl).symm
  · exact ((q 3 3 (by omega)).2.2.2 rfl).symm

theorem castX_std (x : BitVec 128) : castX (oct16 x) = oct16 (xOf castSBoxes x) := by
  have p0 := pack_w x 0 (by omega)
  have p1 := pack_w x 1 (by omega)
  have p2 := pack_w x 2 (by omega)
  have p3 := pack_w x 3 (by omega)
  simp only [Nat.reduceMul, Nat.reduceAdd] at p0 p1 p2 p3
  have o0 := fun v => cast_o v 3
  have o1 := fun v => cast_o v 2
  have o2 := fun v => cast_o v 1
  have o3 := fun v => cast_o v 0
  simp only [Nat.reduceSub] at o0 o1 o2 o3
  simp only [castX, oct16, xOf, p0, p1, p2, p3, o0, o1, o2, o3]
  simp only [castSBoxes, OfNat.ofNat_ne_one, if_false, if_true, Nat.reduceEqDiff]
  generalize w x 2 ^^^ _ ^^^ _ ^^^ _ ^^^ _ ^^^ _ = w0
  generalize w x 0 ^^^ _ ^^^ _ ^^^ _ ^^^ _ ^^^ _ = w1
  generalize w x 1 ^^^ _ ^^^ _ ^^^ _ ^^^ _ ^^^ _ = w2
  generalize w x 3 ^^^ _ ^^^ _ ^^^ _ ^^^ _ ^^^ _ = w3
  have q := b_append w0 w1 w2 w3
  congr 1
  · exact ((q 0 0 (by omega)).1 rfl).symm
  · exact ((q 0 1 (by omega)).1 rfl).symm
  · exact ((q 0 2 (by omega)).1 rfl).symm
  · exact ((q 0 3 (by omega)).1 rfl).symm
  · exact ((q 1 0 (by omega)).2.1 rfl).symm
  · exact ((q 1 1 (by omega)).2.1 rfl).symm
  · exact ((q 1 2 (by omega)).2.1 rfl).symm
  · exact ((q 1 3 (by omega)).2.1 rfl).symm
  · exact ((q 2 0 (by omega)).2.2.1 rfl).symm
  · exact ((q 2 1 (by omega)).2.2.1 rfl).symm
  · exact ((q 2 2 (by omega)).2.2.1 rfl).symm
  · exact ((q 2 3 (by omega)).2.2.1 rfl).symm
  · exact ((q 3 0 (by omega)).2.2.2 rfl).symm
  · exact ((q 3 1 (by omega)).2.2.2 rfl).symm
  · exact ((q 3 2 (by omega)).2.2.2 rfl).symm
  · exact ((q 3 3 (by omega)).2.2.2 rfl).symm

theorem castKeys_std (v : BitVec 128) :
    castKeys1 (oct16 v) = [sub castSBoxes v 0x8 0x9 0x7 0x6 5 0x2, sub castSBoxes v 0xA 0xB 0x5 0x4 6 0x6, sub castSBoxes v 0xC 0xD 0x3 0x2 7 0x9, sub castSBoxes v 0xE 0xF 0x1 0x0 8 0xC] ∧
    castKeys2 (oct16 v) = [sub castSBoxes v 0x3 0x2 0xC 0xD 5 0x8, sub castSBoxes v 0x1 0x0 0xE 0xF 6 0xD, sub castSBoxes v 0x7 0x6 0x8 0x9 7 0x3, sub castSBoxes v 0x5 0x4 0xA 0xB 8 0x7] ∧
    castKeys3 (oct16 v) = [sub castSBoxes v 0x3 0x2 0xC 0xD 5 0x9, sub castSBoxes v 0x1 0x0 0xE 0xF 6 0xC, sub castSBoxes v 0x7 0x6 0x8 0x9 7 0x2, sub castSBoxes v 0x5 0x4 0xA 0xB 8 0x6] ∧
    castKeys4 (oct16 v) = [sub castSBoxes v 0x8 0x9 0x7 0x6 5 0x3, sub castSBoxes v 0xA 0xB 0x5 0x4 6 0x7, sub castSBoxes v 0xC 0xD 0x3 0x2 7 0x8, sub castSBoxes v 0xE 0xF 0x1 0x0 8 0xD] := by
  simp only [castKeys1, castKeys2, castKeys3, castKeys4, oct16, sub, castSBoxes, OfNat.ofNat_ne_one, if_false, if_true, Nat.reduceEqDiff, and_self]

theorem padded_b (key : Bytes) (i : Nat) (hi : i < 16) : b (Std.Cast128.padded key) i = (key.getD i 0).toBitVec := by
  have : ∀ n, ∀ j, j < 128 → ((List.range n).foldl (fun (v : BitVec 128) i => (v <<< 8) ||| (((key.getD i 0).toBitVec).setWidth 128)) 0).getLsbD j =
      (decide (j < 8 * n) && (key.getD (n - 1 - j / 8) 0).toBitVec.getLsbD (j % 8)) := by
    intro n
    induction n with
    | zero => intro j hj; simp
    | succ n ih =>
      intro j hj
      rw [List.range_succ, List.foldl_append, List.foldl_cons, List.foldl_nil]
      simp only [BitVec.getLsbD_or, BitVec.getLsbD_shiftLeft, BitVec.getLsbD_setWidth, hj, decide_true, Bool.true_and]
      by_cases h8 : j < 8
      · rw [decide_eq_true h8, decide_eq_true (show j < 8 * (n + 1) by omega)]
        simp [Nat.div_eq_of_lt h8, Nat.mod_eq_of_lt h8]
      · rw [decide_eq_false h8, ih (j - 8) (by omega), BitVec.getLsbD_of_ge _ j (by omega)]
        rw [show (j - 8) / 8 = j / 8 - 1 by omega, show (j - 8) % 8 = j % 8 by omega,
          show n - 1 - (j / 8 - 1) = n + 1 - 1 - j / 8 by omega]
        simp only [Bool.not_false, Bool.true_and, Bool.or_false]
        congr 1
        simp only [decide_eq_decide]
        omega
  apply BitVec.eq_of_getLsbD_eq
  intro j hj
  rw [b, BitVec.getLsbD_extractLsb', Std.Cast128.padded, this 16 _ (by omega)]
  rw [show 16 - 1 - (8 * (15 - i) + j) / 8 = i by omega, show (8 * (15 - i) + j) % 8 = j by omega,
    decide_eq_true hj, decide_eq_true (by omega)]
  simp

theorem castI (x : BitVec 32) (n : Nat) (h : n < 32) : rol x n 32 = x.rotateLeft n := by
  rcases Nat.eq_zero_or_pos n with rfl | h0
  · rw [rol_zero]
    have e : x >>> 32 = 0#32 := BitVec.ushiftRight_eq_zero (by omega)
    simp [BitVec.rotateLeft, BitVec.rotateLeftAux, e]
  · exact rol_eq (by norm_num) x n h0 h

theorem castF_std (i : Nat) (h1 : 1 ≤ i) (h16 : i ≤ 16) (D K : BitVec 32) (r : BitVec 8) (hr : r.toNat < 32) :
    castF (UInt8.ofNat i) D K r = Std.Cast128.f castSBoxes i D K r.toNat := by
  have o0 := fun v => cast_o v 3
  have o1 := fun v => cast_o v 2
  have o2 := fun v => cast_o v 1
  have o3 := fun v => cast_o v 0
  simp only [Nat.reduceSub] at o0 o1 o2 o3
  unfold castF Std.Cast128.f
  simp only [o0, o1, o2, o3, castI _ _ hr]
  simp only [castSBoxes, OfNat.ofNat_ne_one, if_false, if_true, Nat.reduceEqDiff]
  interval_cases i <;> rfl

theorem cast128_std (KEY : Bytes) (h : KEY.length ≤ 16) : ∃ o, cast128.make KEY = .ok o ∧ ∀ b, b.length = 8 →
    (cast128.encrypt o b).2 = .ok (Std.Cast128.encrypt castSBoxes KEY b) := by
  obtain ⟨o, ho, hr⟩ := castSetkey_ok KEY
  refine ⟨o, ho, ?_⟩
  have hx : (let KEY' := KEY ++ List.replicate (16 - KEY.length) 0
      let k := fun i => (KEY'.getD i 0).toBitVec
      (⟨k 0, k 1, k 2, k 3, k 4, k 5, k 6, k 7, k 8, k 9, k 10, k 11, k 12, k 13, k 14, k 15⟩ : Octets16)) =
      oct16 (Std.Cast128.padded KEY) := by
    have g : ∀ i, i < 16 → ((KEY ++ List.replicate (16 - KEY.length) 0).getD i 0).toBitVec = Std.Cast128.b (Std.Cast128.padded KEY) i := by
      intro i hi
      rw [padded_b KEY i hi]
      congr 1
      rw [List.getD_eq_getElem?_getD, List.getD_eq_getElem?_getD]
      by_cases hl : i < KEY.length
      · rw [List.getElem?_append_left hl]
      · rw [List.getElem?_append_right (by omega), List.getElem?_eq_none (l := KEY) (by omega), List.getElem?_replicate]
        split <;> rfl
    simp only [oct16]
    rw [g 0 (by omega), g 1 (by omega), g 2 (by omega), g 3 (by omega), g 4 (by omega), g 5 (by omega), g 6 (by omega),
      g 7 (by omega), g 8 (by omega), g 9 (by omega), g 10 (by omega), g 11 (by omega), g 12 (by omega), g 13 (by omega),
      g 14 (by omega), g 15 (by omega)]
  have hm : o.km = Std.Cast128.keysM castSBoxes KEY ∧
      o.kr = (Std.Cast128.keysR castSBoxes KEY).map (fun w => (w &&& 31).setWidth 8) ∧
      o.rounds = UInt8.ofNat (Std.Cast128.rounds KEY) := by
    simp only [SymCipher.make, cast128, castSetkey] at ho
    rw [if_neg (by simp)] at ho
    simp only at hx
    rw [hx] at ho
    simp only [castZ_std, castX_std, (castKeys_std _).1, (castKeys_std _).2.1, (castKeys_std _).2.2.1, (castKeys_std _).2.2.2] at ho
    obtain rfl := Out.ok.inj ho
    refine ⟨rfl, rfl, ?_⟩
    simp only [Std.Cast128.rounds]
    by_cases hl : KEY.length ≤ 10
    · rw [if_neg (by omega), if_pos hl]; rfl
    · rw [if_pos (by omega), if_neg hl]; rfl
  intro bl hb
  rw [castEnc_eq hr hb]
  have hrd : o.rounds.toNat = Std.Cast128.rounds KEY := by
    rw [hm.2.2]
    simp only [Std.Cast128.rounds]
    split <;> rfl
  have step : ∀ (d : BitVec 32 × BitVec 32) (i : Nat), 1 ≤ i → i ≤ 16 →
      castRound o d (UInt8.ofNat i) = Std.Cast128.round castSBoxes KEY d i := by
    intro d i h1 h16
    have hi : (UInt8.ofNat i).toNat = i := by simp; omega
    have hk : o.kr.getD (i - 1) 0 = (((Std.Cast128.keysR castSBoxes KEY).getD (i - 1) 0) &&& 31).setWidth 8 := by
      rw [hm.2.1]
      simp only [List.getD_eq_getElem?_getD, List.getElem?_map]
      cases (Std.Cast128.keysR castSBoxes KEY)[i - 1]? <;> rfl
    have hkn : (o.kr.getD (i - 1) 0).toNat = Std.Cast128.kr castSBoxes KEY i := by
      rw [hk, Std.Cast128.kr, BitVec.toNat_setWidth, BitVec.toNat_and, show (31 : BitVec 32).toNat = 2 ^ 5 - 1 from rfl,
        Nat.and_two_pow_sub_one_eq_mod]
      omega
    simp only [castRound, Std.Cast128.round, hi]
    rw [castF_std i h1 h16 _ _ _ (by rw [hkn, Std.Cast128.kr]; omega), hkn, hm.1]
    rfl
  have all : ∀ (n : Nat) (d : BitVec 32 × BitVec 32), n ≤ 16 →
      ((List.range n).map fun j => 1 + UInt8.ofNat j).foldl (castRound o) d =
        (List.range' 1 n).foldl (Std.Cast128.round castSBoxes KEY) d := by
    intro n d
    induction n with
    | zero => intro _; rfl
    | succ n ih =>
      intro hn
      rw [List.range_succ, List.range'_concat, List.map_append, List.foldl_append, List.foldl_append, ih (by omega)]
      simp only [List.map_cons, List.map_nil, List.foldl_cons, List.foldl_nil]
      rw [← step _ _ (by omega) (by omega)]
      congr 1
      rw [Nat.one_mul, UInt8.ofNat_add]
      rfl
  have hn : Std.Cast128.rounds KEY ≤ 16 := by unfold Std.Cast128.rounds; split <;> omega
  rw [castUp, hrd, all _ _ hn]
  have w4 : ∀ i, i + 4 ≤ 8 → wordAt 32 bl i 4 = Std.Cast128.word bl i := by
    intro i hi
    rw [wordAt_octets4 _ _ (by omega)]
    rfl
  rw [w4 0 (by omega), w4 4 (by omega), be4_bf, be4_bf]
  rfl

end OpenPGP
