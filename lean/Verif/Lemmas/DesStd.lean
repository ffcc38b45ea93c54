import Verif.Lemmas.Des
import Verif.Spec.Des

/-! `src/Encryptions/DES.cpp` computes DES and `TDES.cpp` Triple-DES. -/
namespace OpenPGP
open Std.Des (Bits number bits choose)

/-- The characters of a modelled bit string. -/
def bvBits {n : Nat} (x : BitVec n) : Bits := bits n x.toNat

theorem bvBits_length {n : Nat} (x : BitVec n) : (bvBits x).length = n := by simp [bvBits, bits]

theorem bvBits_getD {n : Nat} (x : BitVec n) (i : Nat) : (bvBits x).getD i false = x.getMsbD i := by
  unfold bvBits bits BitVec.getMsbD
  by_cases h : i < n
  · simp [List.getD, h, BitVec.getLsbD]
  · simp [List.getD, h]

theorem bits_ext {a b : Bits} (hl : a.length = b.length) (h : ∀ i, i < a.length → a.getD i false = b.getD i false) : a = b := by
  apply List.ext_getElem hl
  intro i h1 h2
  have := h i h1
  rwa [List.getD_eq_getElem _ _ h1, List.getD_eq_getElem _ _ h2] at this

theorem pickBits_std {n : Nat} (T : List Nat) (x : BitVec n) : pickBits T x = number (choose T (bvBits x)) := by
  unfold pickBits number choose
  rw [List.foldl_map]
  simp only [bvBits_getD]

theorem number_append (s : Bits) (b : Bool) : number (s ++ [b]) = 2 * number s + b.toNat := by simp [number]

theorem number_lt (s : Bits) : number s < 2 ^ s.length := by
  induction s using List.reverseRecOn with
  | nil => simp [number]
  | append_singleton s b ih =>
    rw [number_append, List.length_append, List.length_singleton, pow_succ]
    have := Bool.toNat_lt b
    omega

theorem bits_number (s : Bits) : bits s.length (number s) = s := by
  induction s using List.reverseRecOn with
  | nil => rfl
  | append_singleton s b ih =>
    rw [number_append, List.length_append, List.length_singleton]
    unfold bits at ih ⊢
    rw [List.range_succ, List.map_append, List.map_singleton]
    congr 1
    · conv => rhs; rw [← ih]
      apply List.map_congr_left
      intro i hi
      have hi := List.mem_range.mp hi
      rw [show s.length + 1 - 1 - i = (s.length - 1 - i) + 1 by omega, Nat.testBit_succ]
      congr 1
      have := Bool.toNat_lt b
      omega
    · rw [show s.length + 1 - 1 - s.length = 0 by omega, Nat.testBit_zero]
      cases b <;> simp

theorem bvBits_ofNat (m v : Nat) : bvBits (BitVec.ofNat m v) = bits m v := by
  unfold bvBits bits
  apply List.map_congr_left
  intro i hi
  have hi := List.mem_range.mp hi
  rw [BitVec.toNat_ofNat, Nat.testBit_mod_two_pow]
  simp; intro; omega

theorem bvBits_number (m : Nat) (s : Bits) (h : s.length = m) : bvBits (BitVec.ofNat m (number s)) = s := by
  subst h
  rw [bvBits_ofNat, bits_number]

theorem choose_length (T : List Nat) (s : Bits) : (choose T s).length = T.length := by simp [choose]

theorem bvBits_pick {n m : Nat} (T : List Nat) (x : BitVec n) (h : T.length = m) :
    bvBits (BitVec.ofNat m (pickBits T x)) = choose T (bvBits x) := by
  rw [pickBits_std, bvBits_number _ _ (by rw [choose_length, h])]

theorem zipXor_getD (a b : Bits) (h : a.length = b.length) (i : Nat) :
    (Std.Des.add a b).getD i false = Bool.xor (a.getD i false) (b.getD i false) := by
  unfold Std.Des.add
  by_cases hi : i < a.length
  · have hb : i < b.length := h ▸ hi
    simp [List.getD, hi, hb]
  · have hb : ¬ i < b.length := h ▸ hi
    simp [List.getD, List.getElem?_zipWith, List.getElem?_eq_none (Nat.le_of_not_lt hi), List.getElem?_eq_none (Nat.le_of_not_lt hb)]

theorem bvBits_xor {n : Nat} (x y : BitVec n) : bvBits (x ^^^ y) = Std.Des.add (bvBits x) (bvBits y) := by
  apply bits_ext
  · simp [Std.Des.add, bvBits_length]
  · intro i hi
    rw [zipXor_getD _ _ (by simp [bvBits_length]), bvBits_getD, bvBits_getD, bvBits_getD]
    exact BitVec.getMsbD_xor

theorem bvBits_append {n m : Nat} (x : BitVec n) (y : BitVec m) : bvBits (x ++ y) = bvBits x ++ bvBits y := by
  apply bits_ext
  · simp [bvBits_length]
  · intro i hi
    rw [bvBits_getD]
    rw [BitVec.getMsbD_append]
    by_cases h : i < n
    · rw [List.getD_append _ _ _ _ (by rwa [bvBits_length]), bvBits_getD]
      simp [Nat.not_le.mpr h]
    · rw [List.getD_append_right _ _ _ _ (by rw [bvBits_length]; omega), bvBits_length, bvBits_getD]
      simp [Nat.le_of_not_lt h]

theorem bvBits_extract {n : Nat} (x : BitVec n) (p l : Nat) (h : p + l ≤ n) :
    bvBits (x.extractLsb' p l) = ((bvBits x).drop (n - p - l)).take l := by
  apply bits_ext
  · simp [bvBits_length]; omega
  · intro i hi
    rw [bvBits_length] at hi
    rw [bvBits_getD]
    rw [List.getD, List.getElem?_take, if_pos hi, List.getElem?_drop, ← List.getD, bvBits_getD]
    simp only [BitVec.getMsbD, BitVec.getLsbD_extractLsb']
    have h1 : l - 1 - i < l := by omega
    have h2 : n - p - l + i < n := by omega
    simp only [hi, h1, h2, decide_true, Bool.true_and]
    congr 1; omega

theorem number_bvBits {n : Nat} (x : BitVec n) : number (bvBits x) = x.toNat := by
  have h1 := bvBits_number n (bvBits x) (bvBits_length x)
  have hinj : ∀ a b : BitVec n, bvBits a = bvBits b → a = b := by
    intro a b hab
    apply BitVec.eq_of_getMsbD_eq
    intro i hi
    rw [← bvBits_getD, ← bvBits_getD, hab]
  have h2 := congrArg BitVec.toNat (hinj _ _ h1)
  rw [BitVec.toNat_ofNat, Nat.mod_eq_of_lt] at h2
  · exact h2
  · have := number_lt (bvBits x)
    rwa [bvBits_length] at this

/-! ## Tables -/

theorem desIP_std : desIP = Std.Des.IP := by decide +kernel
theorem desINVIP_std : desINVIP = Std.Des.IPinv := by decide +kernel
theorem desEX_std : desEX = Std.Des.E := by decide +kernel
theorem desP_std : desP = Std.Des.P := by decide +kernel
theorem desPC1l_std : desPC1l = Std.Des.PC1C := by decide +kernel
theorem desPC1r_std : desPC1r = Std.Des.PC1D := by decide +kernel
theorem desPC2_std : desPC2 = Std.Des.PC2 := by decide +kernel
theorem desRot_std : desRot = (List.range' 1 16).map Std.Des.shifts := by decide +kernel

/-- One S-box of the code. -/
def desBox (y : Nat) (R : BitVec 6) : BitVec 4 :=
  tab 4 desSBoxT 512 (64 * y + 16 * ((R.getMsbD 0).toNat * 2 + (R.getMsbD 5).toNat) + (R.extractLsb' 1 4).toNat)

theorem desBox_std : ∀ y < 8, ∀ R : BitVec 6, bvBits (desBox y R) = Std.Des.select y (bvBits R) := by decide +kernel

theorem number_append_bits (s : Bits) (v : BitVec 4) : number (s ++ bvBits v) = 16 * number s + v.toNat := by
  have hv : ∀ v : BitVec 4, ∀ (a : Nat), (bvBits v).foldl (fun a b => 2 * a + b.toNat) a = 16 * a + v.toNat := by
    intro v a
    have h := number_bvBits v
    rcases hb : bvBits v with _ | ⟨b0, _ | ⟨b1, _ | ⟨b2, _ | ⟨b3, _ | ⟨b4, t⟩⟩⟩⟩⟩
    all_goals
      have hl := bvBits_length v
      rw [hb] at hl
      simp only [List.length_nil, List.length_cons] at hl
    any_goals omega
    rw [hb] at h
    simp only [number, List.foldl_cons, List.foldl_nil] at h ⊢
    omega
  unfold number
  rw [List.foldl_append, hv]

theorem desTemp_std (g : Nat → BitVec 4) (L : List Nat) (s : Bits) :
    L.foldl (fun acc y => 16 * acc + (g y).toNat) (number s) = number (s ++ L.flatMap fun y => bvBits (g y)) := by
  induction L generalizing s with
  | nil => simp
  | cons y L ih =>
    rw [List.foldl_cons, ← number_append_bits, ih, List.flatMap_cons, List.append_assoc]

theorem desF_std (r : BitVec 32) (n : Nat) :
    bvBits (desF r (BitVec.ofNat 64 n)) = Std.Des.f (bvBits r) (bits 48 n) := by
  unfold desF Std.Des.f
  simp only
  rw [bvBits_pick _ _ (by rfl), desP_std]
  congr 1
  have hx : bvBits ((BitVec.ofNat 64 (pickBits desEX r) ^^^ BitVec.ofNat 64 n).setWidth 48) =
      Std.Des.add (choose Std.Des.E (bvBits r)) (bits 48 n) := by
    rw [BitVec.setWidth_xor, BitVec.setWidth_ofNat_of_le (by omega), BitVec.setWidth_ofNat_of_le (by omega), bvBits_xor,
      bvBits_pick _ _ (by rfl), bvBits_ofNat, desEX_std]
  set R : BitVec 48 := (BitVec.ofNat 64 (pickBits desEX r) ^^^ BitVec.ofNat 64 n).setWidth 48 with hR
  have := desTemp_std (fun y => desBox y (R.extractLsb' (6 * (7 - y)) 6)) (List.range 8) []
  simp only [desBox] at this
  have h0 : number [] = 0 := rfl
  rw [h0] at this
  rw [this, List.nil_append, bvBits_number]
  · rw [List.flatMap, List.flatMap]
    congr 1
    apply List.map_congr_left
    intro y hy
    have hy := List.mem_range.mp hy
    rw [← hx, show 6 * y = 48 - 6 * (7 - y) - 6 by omega, ← bvBits_extract _ _ _ (by omega)]
    exact desBox_std y hy _
  · rw [List.length_flatMap]
    simp [bvBits_length]

/-! ## Keys -/

/-- A 64-bit key word of the code holds 48 bits. -/
def IsKey (k : BitVec 64) (K : Bits) : Prop := ∃ n, n < 2 ^ 48 ∧ k = BitVec.ofNat 64 n ∧ bits 48 n = K

theorem isKey_pick (x : BitVec 56) : IsKey (BitVec.ofNat 64 (pickBits desPC2 x)) (choose Std.Des.PC2 (bvBits x)) := by
  refine ⟨pickBits desPC2 x, pickBits_lt x desPC2, rfl, ?_⟩
  rw [← bvBits_ofNat, bvBits_pick _ _ (by rfl), desPC2_std]

theorem desRotate_std (s : BitVec 28) (r : Nat) (h : r ≤ 28) : bvBits (desRotate s r) = Std.Des.rotate r (bvBits s) := by
  unfold desRotate Std.Des.rotate
  rw [bvBits_extract _ _ _ (by omega), bvBits_append]
  rw [show 28 + 28 - (28 - r) - 28 = r by omega]
  rw [List.drop_append_of_le_length (by rw [bvBits_length]; omega)]
  rw [List.take_append]
  rw [List.length_drop, bvBits_length, List.take_of_length_le (by rw [List.length_drop, bvBits_length]; omega)]
  congr 2; omega

theorem desSchedule_std (key : Bits) : ∀ (n j : Nat) (l r : BitVec 28),
    (bvBits l, bvBits r) = Std.Des.CD key j →
    List.Forall₂ IsKey (desSchedule ((List.range' (j + 1) n).map Std.Des.shifts) l r)
      ((List.range' (j + 1) n).map (Std.Des.K key)) := by
  intro n
  induction n with
  | zero => intro j l r _; exact List.Forall₂.nil
  | succ n ih =>
    intro j l r h
    rw [List.range'_succ, List.map_cons, List.map_cons, desSchedule]
    have hs : Std.Des.shifts (j + 1) ≤ 28 := by unfold Std.Des.shifts; split <;> omega
    have hcd : (bvBits (desRotate l (Std.Des.shifts (j + 1))), bvBits (desRotate r (Std.Des.shifts (j + 1)))) =
        Std.Des.CD key (j + 1) := by
      rw [desRotate_std _ _ hs, desRotate_std _ _ hs, Std.Des.CD, ← h]
    refine List.Forall₂.cons ?_ (ih (j + 1) _ _ hcd)
    unfold Std.Des.K
    rw [← hcd]
    simp only
    rw [← bvBits_append]
    exact isKey_pick _

theorem desKeys_std (KEY : Bytes) (h : KEY.length = 8) :
    ∃ o, des.make KEY = .ok o ∧ o.keyset = true ∧ List.Forall₂ IsKey o.keys (Std.Des.keys KEY) := by
  simp only [SymCipher.make, des, desSetkey]
  rw [if_neg (by simp), if_neg (by simp [h])]
  refine ⟨_, rfl, rfl, ?_⟩
  rw [desRot_std]
  refine desSchedule_std _ 16 0 _ _ ?_
  rw [Std.Des.CD, bvBits_pick _ _ (by rfl), bvBits_pick _ _ (by rfl), desPC1l_std, desPC1r_std, bvBits_ofNat]
  rfl

theorem desFold_std (ks : List (BitVec 64)) (Ks : List Bits) (h : List.Forall₂ IsKey ks Ks) (d : BitVec 32 × BitVec 32) :
    (bvBits (ks.foldl desRound d).1, bvBits (ks.foldl desRound d).2) =
      Ks.foldl (fun (l, r) k => (r, Std.Des.add l (Std.Des.f r k))) (bvBits d.1, bvBits d.2) := by
  induction h generalizing d with
  | nil => rfl
  | cons hk _ ih =>
    obtain ⟨n, hn, rfl, rfl⟩ := hk
    rw [List.foldl_cons, ih, List.foldl_cons]
    simp only [desRound, bvBits_xor, desF_std]

theorem desBlock_std (ks : List (BitVec 64)) (Ks : List Bits) (h : List.Forall₂ IsKey ks Ks) (b : Bytes) :
    desBlock ks b = .ok (Std.Des.toOctets (Std.Des.crypt Ks (Std.Des.ofOctets b))) := by
  unfold desBlock
  simp only [hex8]
  rw [pickBits_std, bvBits_append]
  unfold Std.Des.toOctets Std.Des.crypt Std.Des.ofOctets
  simp only
  rw [desINVIP_std]
  have hip : bvBits (BitVec.ofNat 64 (pickBits desIP (BitVec.ofNat 64 (num b)))) = choose Std.Des.IP (bits 64 (num b)) := by
    rw [bvBits_pick _ _ (by rfl), desIP_std, bvBits_ofNat]
  have hf := desFold_std ks Ks h ((BitVec.ofNat 64 (pickBits desIP (BitVec.ofNat 64 (num b)))).extractLsb' 32 32,
    (BitVec.ofNat 64 (pickBits desIP (BitVec.ofNat 64 (num b)))).extractLsb' 0 32)
  simp only at hf
  rw [bvBits_extract _ 32 32 (by omega), bvBits_extract _ 0 32 (by omega), hip] at hf
  rw [show 64 - 32 - 32 = 0 from rfl, List.drop_zero, show 64 - 0 - 32 = 32 from rfl,
    List.take_of_length_le (l := List.drop 32 _) (by rw [List.length_drop, choose_length]; decide +kernel)] at hf
  rw [← hf]

theorem des_std (KEY : Bytes) (h : KEY.length = 8) :
    ∃ o, des.make KEY = .ok o ∧ ∀ b : Bytes, b.length = 8 →
      (des.encrypt o b).2 = .ok (Std.Des.encrypt KEY b) ∧ (des.decrypt o b).2 = .ok (Std.Des.decrypt KEY b) := by
  obtain ⟨o, ho, hs, hk⟩ := desKeys_std KEY h
  refine ⟨o, ho, fun b hb => ⟨?_, ?_⟩⟩
  · rw [desEncrypt_eq hs hb, desBlock_std _ _ hk b, Std.Des.encrypt]
  · rw [desDecrypt_eq hs hb, desBlock_std _ _ (List.forall₂_reverse_iff.mpr hk) b, Std.Des.decrypt]

theorem tdesRun_std (o : TdesObj) (hs : o.keyset = true) (b k : Bytes) (hb : b.length = 8) (hk : k.length = 8) :
    tdesRun o b k false = .ok (Std.Des.encrypt k b) ∧ tdesRun o b k true = .ok (Std.Des.decrypt k b) := by
  obtain ⟨d, hd, h⟩ := des_std k hk
  simp only [tdesRun, hs, hb, hd, Out.ok_bind]
  exact h b hb

theorem tdes_std (KEY : Bytes) (h : 24 ≤ KEY.length) :
    ∃ o, tdes.make KEY = .ok o ∧ ∀ b : Bytes, b.length = 8 → (tdes.encrypt o b).2 = .ok (Std.Des.tripleEncrypt KEY b) := by
  refine ⟨_, tdesSetkey_ok KEY h, fun b hb => ?_⟩
  have l1 : (KEY.take 8).length = 8 := by simp; omega
  have l2 : ((KEY.drop 8).take 8).length = 8 := by simp; omega
  have l3 : ((KEY.drop 16).take 8).length = 8 := by simp; omega
  simp only [tdes, tdesEncrypt]
  rw [(tdesRun_std _ rfl _ _ hb l1).1, Out.ok_bind, (tdesRun_std _ rfl _ _ (by simp [Std.Des.encrypt, Std.Des.toOctets]) l2).2, Out.ok_bind,
    (tdesRun_std _ rfl _ _ (by simp [Std.Des.decrypt, Std.Des.toOctets]) l3).1]
  rfl

end OpenPGP
