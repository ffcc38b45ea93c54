import Verif.Lemmas.Twofish
import Verif.Lemmas.AesStd
import Verif.Lemmas.OctetBits
import Verif.Spec.Twofish

/-! `src/Encryptions/Twofish.cpp` computes Twofish. -/
namespace OpenPGP
open Std.Twofish (byte ofBytes q0 q1 mul mds)

theorem octetOf_std (x : BitVec 32) (j : Nat) : octetOf x j = byte x j := by
  apply BitVec.eq_of_getLsbD_eq
  intro i hi
  rw [octetOf_getLsbD _ _ _ hi, byte, BitVec.getLsbD_extractLsb']
  simp [hi]

theorem packWord_std (a b c d : BitVec 8) : packWord a b c d = ofBytes d c b a := by
  apply BitVec.eq_of_toNat_eq
  rw [packWord_toNat]
  simp only [ofBytes, BitVec.toNat_append, ← Nat.shiftLeft_add_eq_or_of_lt, BitVec.isLt]
  simp only [Nat.shiftLeft_eq]
  ring

theorem xz {n : Nat} (r : BitVec n) : r ^^^ 0 = r := BitVec.xor_zero
theorem zx {n : Nat} (r : BitVec n) : 0 ^^^ r = r := BitVec.zero_xor

theorem tfQ_std : ∀ i, tfQ 0 i = q0 i ∧ tfQ 1 i = q1 i := by decide +kernel

theorem ofBytes_xor (a b c d a' b' c' d' : BitVec 8) :
    ofBytes a b c d ^^^ ofBytes a' b' c' d' = ofBytes (a ^^^ a') (b ^^^ b') (c ^^^ c') (d ^^^ d') := by
  apply BitVec.eq_of_getLsbD_eq
  intro i hi
  simp only [ofBytes, BitVec.getLsbD_append, BitVec.getLsbD_xor]
  split_ifs <;> rfl

theorem tfM_std : ∀ i, tfM 0 i = ofBytes (mul Std.Twofish.v 0x01 (q1 i)) (mul Std.Twofish.v 0x5B (q1 i)) (mul Std.Twofish.v 0xEF (q1 i)) (mul Std.Twofish.v 0xEF (q1 i)) ∧
    tfM 1 i = ofBytes (mul Std.Twofish.v 0xEF (q0 i)) (mul Std.Twofish.v 0xEF (q0 i)) (mul Std.Twofish.v 0x5B (q0 i)) (mul Std.Twofish.v 0x01 (q0 i)) ∧
    tfM 2 i = ofBytes (mul Std.Twofish.v 0x5B (q1 i)) (mul Std.Twofish.v 0xEF (q1 i)) (mul Std.Twofish.v 0x01 (q1 i)) (mul Std.Twofish.v 0xEF (q1 i)) ∧
    tfM 3 i = ofBytes (mul Std.Twofish.v 0x5B (q0 i)) (mul Std.Twofish.v 0x01 (q0 i)) (mul Std.Twofish.v 0xEF (q0 i)) (mul Std.Twofish.v 0x5B (q0 i)) := by
  decide +kernel

theorem tfM_mds (a b c d : BitVec 8) : tfM 0 a ^^^ tfM 1 b ^^^ tfM 2 c ^^^ tfM 3 d = mds (q1 a) (q0 b) (q1 c) (q0 d) := by
  rw [(tfM_std a).1, (tfM_std b).2.1, (tfM_std c).2.2.1, (tfM_std d).2.2.2, ofBytes_xor, ofBytes_xor, ofBytes_xor, mds]

theorem tfH_std (x : BitVec 32) (key : List (BitVec 32)) (h : key.length ≤ 4) : tfH x key = Std.Twofish.h x key := by
  unfold tfH Std.Twofish.h
  simp only [octetOf_std, (tfQ_std _).1, (tfQ_std _).2, tfM_mds]
  by_cases h4 : key.length = 4
  · simp [h4]
  · have h4' : ¬ 4 ≤ key.length := by omega
    simp only [h4, h4', if_false]

/-! ## The RS code -/

/-- The feedback of the loop. -/
def tfFb (t : BitVec 8) : BitVec 32 :=
  ofBytes t (mul Std.Twofish.w 0xA4 t) (mul Std.Twofish.w 0x02 t) (mul Std.Twofish.w 0xA4 t)

/-- The loop body on the last octet. -/
theorem tfFb_eq : ∀ t : BitVec 8, tfFb t =
    (let T : BitVec 32 := t.setWidth 32
     let u := T <<< 1
     let u := if T &&& 0x80 ≠ 0 then u ^^^ 0x14d else u
     let b := T ^^^ (u <<< 16)
     let u := u ^^^ (T >>> 1)
     let u := if T &&& 0x01 ≠ 0 then u ^^^ (0x14d >>> 1) else u
     b ^^^ ((u <<< 24) ||| (u <<< 8))) := by decide +kernel

theorem tfReduceStep_eq (a b : BitVec 32) :
    tfReduceStep (a, b) = (a <<< 8, ((b <<< 8) ||| (a >>> 24)) ^^^ tfFb (octetOf b 3)) := by
  have ht : b >>> 24 = (octetOf b 3).setWidth 32 := by
    apply BitVec.eq_of_toNat_eq
    rw [BitVec.toNat_setWidth, octetOf_toNat, BitVec.toNat_ushiftRight, Nat.shiftRight_eq_div_pow]
    have := b.isLt
    omega
  unfold tfReduceStep
  simp only [ht]
  rw [tfFb_eq]
  simp only [BitVec.xor_assoc]

theorem mul_add (p a x y : BitVec 8) : mul p a (x ^^^ y) = mul p a x ^^^ mul p a y := by
  have : ∀ (L : List Nat) (s t : BitVec 8),
      L.foldl (fun s i => s ^^^ (if (x ^^^ y).getLsbD i then Std.Twofish.timesPow p a i else 0)) (s ^^^ t) =
        L.foldl (fun s i => s ^^^ (if x.getLsbD i then Std.Twofish.timesPow p a i else 0)) s ^^^
          L.foldl (fun s i => s ^^^ (if y.getLsbD i then Std.Twofish.timesPow p a i else 0)) t := by
    intro L
    induction L with
    | nil => intro s t; rfl
    | cons i L ih =>
      intro s t
      simp only [List.foldl_cons]
      rw [← ih]
      congr 1
      rw [BitVec.getLsbD_xor]
      generalize Std.Twofish.timesPow p a i = v
      have z : ∀ r : BitVec 8, r ^^^ 0 = r := fun r => BitVec.xor_zero
      cases x.getLsbD i <;> cases y.getLsbD i <;> simp only [Bool.xor_false, Bool.xor_true, Bool.not_false, Bool.not_true,
        Bool.false_eq_true, if_true, if_false, z]
      · rw [BitVec.xor_assoc]
      · rw [BitVec.xor_assoc, BitVec.xor_assoc, BitVec.xor_comm t v]
      · rw [BitVec.xor_assoc s v, ← BitVec.xor_assoc v t v, BitVec.xor_comm v t, BitVec.xor_assoc t v v, BitVec.xor_self,
          BitVec.xor_zero]
  have := this (List.range 8) 0 0
  rwa [show (0 : BitVec 8) ^^^ 0 = 0 from rfl] at this

theorem tfFb_add (x y : BitVec 8) : tfFb (x ^^^ y) = tfFb x ^^^ tfFb y := by
  simp only [tfFb, mul_add, ofBytes_xor]

theorem shl_add (a b : BitVec 32) : (a ^^^ b) <<< 8 = a <<< 8 ^^^ b <<< 8 := BitVec.shiftLeft_xor_distrib a b 8
theorem shr_add (a b : BitVec 32) : (a ^^^ b) >>> 24 = a >>> 24 ^^^ b >>> 24 := BitVec.ushiftRight_xor_distrib a b 24

theorem or_eq_xor (a b : BitVec 32) : (b <<< 8) ||| (a >>> 24) = (b <<< 8) ^^^ (a >>> 24) := by
  apply BitVec.eq_of_getLsbD_eq
  intro i hi
  simp only [BitVec.getLsbD_or, BitVec.getLsbD_xor, BitVec.getLsbD_shiftLeft, BitVec.getLsbD_ushiftRight]
  by_cases h : i < 8
  · simp [h]
  · rw [BitVec.getLsbD_of_ge a _ (by omega)]
    simp

theorem tfReduceStep_add (a b a' b' : BitVec 32) : tfReduceStep (a ^^^ a', b ^^^ b') =
    ((tfReduceStep (a, b)).1 ^^^ (tfReduceStep (a', b')).1, (tfReduceStep (a, b)).2 ^^^ (tfReduceStep (a', b')).2) := by
  have hor : ((b ^^^ b') <<< 8) ||| ((a ^^^ a') >>> 24) = (b <<< 8 ^^^ b' <<< 8) ^^^ (a >>> 24 ^^^ a' >>> 24) := by
    rw [or_eq_xor, shl_add, shr_add]
  rw [tfReduceStep_eq, tfReduceStep_eq, tfReduceStep_eq, octetOf_xor, tfFb_add, hor, or_eq_xor a b, or_eq_xor a' b', shl_add a]
  congr 1
  dsimp only
  generalize b <<< 8 = p1
  generalize b' <<< 8 = p2
  generalize a >>> 24 = p3
  generalize a' >>> 24 = p4
  generalize tfFb _ = p5
  generalize tfFb _ = p6
  ac_rfl

theorem tfReduce_add (a b a' b' : BitVec 32) : tfReduce (a ^^^ a') (b ^^^ b') = tfReduce a b ^^^ tfReduce a' b' := by
  have : ∀ (L : List Nat) (s t : BitVec 32 × BitVec 32),
      L.foldl (fun s _ => tfReduceStep s) (s.1 ^^^ t.1, s.2 ^^^ t.2) =
        ((L.foldl (fun s _ => tfReduceStep s) s).1 ^^^ (L.foldl (fun s _ => tfReduceStep s) t).1,
         (L.foldl (fun s _ => tfReduceStep s) s).2 ^^^ (L.foldl (fun s _ => tfReduceStep s) t).2) := by
    intro L
    induction L with
    | nil => intro s t; rfl
    | cons i L ih =>
      intro s t
      simp only [List.foldl_cons]
      rw [tfReduceStep_add, ih]
  unfold tfReduce
  rw [this (List.range 8) (a, b) (a', b')]

/-- Column `j` of the RS matrix times an octet. -/
def rsCol (j : Nat) (x : BitVec 8) : BitVec 32 :=
  ofBytes (mul Std.Twofish.w ([0x01, 0xA4, 0x55, 0x87, 0x5A, 0x58, 0xDB, 0x9E].getD j 0) x)
    (mul Std.Twofish.w ([0xA4, 0x56, 0x82, 0xF3, 0x1E, 0xC6, 0x68, 0xE5].getD j 0) x)
    (mul Std.Twofish.w ([0x02, 0xA1, 0xFC, 0xC1, 0x47, 0xAE, 0x3D, 0x19].getD j 0) x)
    (mul Std.Twofish.w ([0xA4, 0x55, 0x87, 0x5A, 0x58, 0xDB, 0x9E, 0x03].getD j 0) x)

theorem tfReduce_a0 : ∀ x, tfReduce (ofBytes x 0 0 0) 0 = rsCol 0 x := by decide +kernel
theorem tfReduce_a1 : ∀ x, tfReduce (ofBytes 0 x 0 0) 0 = rsCol 1 x := by decide +kernel
theorem tfReduce_a2 : ∀ x, tfReduce (ofBytes 0 0 x 0) 0 = rsCol 2 x := by decide +kernel
theorem tfReduce_a3 : ∀ x, tfReduce (ofBytes 0 0 0 x) 0 = rsCol 3 x := by decide +kernel
theorem tfReduce_b0 : ∀ x, tfReduce 0 (ofBytes x 0 0 0) = rsCol 4 x := by decide +kernel
theorem tfReduce_b1 : ∀ x, tfReduce 0 (ofBytes 0 x 0 0) = rsCol 5 x := by decide +kernel
theorem tfReduce_b2 : ∀ x, tfReduce 0 (ofBytes 0 0 x 0) = rsCol 6 x := by decide +kernel
theorem tfReduce_b3 : ∀ x, tfReduce 0 (ofBytes 0 0 0 x) = rsCol 7 x := by decide +kernel

theorem ofBytes_split (a b c d : BitVec 8) :
    ofBytes a b c d = ofBytes a 0 0 0 ^^^ ofBytes 0 b 0 0 ^^^ ofBytes 0 0 c 0 ^^^ ofBytes 0 0 0 d := by
  simp only [ofBytes_xor, xz, zx]

theorem tfReduce_ofBytes (a b c d e f g h : BitVec 8) : tfReduce (ofBytes a b c d) (ofBytes e f g h) =
    rsCol 0 a ^^^ rsCol 1 b ^^^ rsCol 2 c ^^^ rsCol 3 d ^^^ rsCol 4 e ^^^ rsCol 5 f ^^^ rsCol 6 g ^^^ rsCol 7 h := by
  have h1 : tfReduce (ofBytes a b c d) (ofBytes e f g h) = tfReduce (ofBytes a b c d ^^^ 0) (0 ^^^ ofBytes e f g h) := by
    rw [xz, zx]
  have ha : ∀ x y : BitVec 32, tfReduce (x ^^^ y) 0 = tfReduce x 0 ^^^ tfReduce y 0 := by
    intro x y; rw [← tfReduce_add, xz]
  have hb : ∀ x y : BitVec 32, tfReduce 0 (x ^^^ y) = tfReduce 0 x ^^^ tfReduce 0 y := by
    intro x y; rw [← tfReduce_add, xz]
  rw [h1, tfReduce_add (ofBytes a b c d) 0 0 (ofBytes e f g h), ofBytes_split a b c d, ofBytes_split e f g h]
  simp only [ha, hb, tfReduce_a0, tfReduce_a1, tfReduce_a2, tfReduce_a3, tfReduce_b0, tfReduce_b1, tfReduce_b2, tfReduce_b3]
  simp only [BitVec.xor_assoc]

theorem tfReduce_std (key : Bytes) (i : Nat) :
    tfReduce (Std.Twofish.M key (2 * i)) (Std.Twofish.M key (2 * i + 1)) = Std.Twofish.Sword key i := by
  unfold Std.Twofish.M
  rw [tfReduce_ofBytes]
  simp only [rsCol, ofBytes_xor, Std.Twofish.Sword, Std.Twofish.rsRow, show List.range 8 = [0, 1, 2, 3, 4, 5, 6, 7] from rfl,
    List.foldl_cons, List.foldl_nil, zx]
  rw [show 4 * (2 * i) = 8 * i by omega, show 4 * (2 * i + 1) = 8 * i + 4 by omega]
  simp only [Nat.add_assoc, Nat.reduceAdd, Nat.add_zero]

end OpenPGP
