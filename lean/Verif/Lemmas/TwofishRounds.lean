import Verif.Lemmas.TwofishStd

/-! `src/Encryptions/Twofish.cpp` computes Twofish: the key schedule and the rounds. -/
namespace OpenPGP
open Std.Twofish (byte ofBytes q0 q1 mul mds)

theorem wordLE_std (s : Bytes) (i : Nat) (h : 4 * i + 4 ≤ s.length) : wordLE s (4 * i) = Std.Twofish.M s i := by
  have e : (s.drop (4 * i)).take 4 = [s.getD (4 * i) 0, s.getD (4 * i + 1) 0, s.getD (4 * i + 2) 0, s.getD (4 * i + 3) 0] := by
    apply List.ext_getElem
    · simp; omega
    · intro j h1 h2
      simp only [List.length_cons, List.length_nil] at h2
      simp only [List.getElem_take, List.getElem_drop]
      have a0 := List.getElem?_eq_getElem (show 4 * i < s.length by omega)
      have a1 := List.getElem?_eq_getElem (show 4 * i + 1 < s.length by omega)
      have a2 := List.getElem?_eq_getElem (show 4 * i + 2 < s.length by omega)
      have a3 := List.getElem?_eq_getElem (show 4 * i + 3 < s.length by omega)
      interval_cases j <;> simp [List.getD_eq_getElem?_getD, a0, a1, a2, a3]
  unfold wordLE littleEnd256 Std.Twofish.M Std.Twofish.m
  rw [e, toint256_small _ (by simp), ← packWord_std]
  apply BitVec.eq_of_toNat_eq
  rw [packWord_toNat]
  generalize s.getD (4 * i) 0 = x0
  generalize s.getD (4 * i + 1) 0 = x1
  generalize s.getD (4 * i + 2) 0 = x2
  generalize s.getD (4 * i + 3) 0 = x3
  have h0 := x0.toNat_lt
  have h1 := x1.toNat_lt
  have h2 := x2.toNat_lt
  have h3 := x3.toNat_lt
  simp only [UInt8.toNat_toBitVec, BitVec.toNat_ofNat]
  simp [num]
  omega

theorem octets_std (x : BitVec 32) : (be 4 x.toNat).reverse = Std.Twofish.octets x := by
  unfold Std.Twofish.octets
  simp only [← octetOf_std]
  have hx := x.isLt
  have : x.toNat = num [⟨octetOf x 3⟩, ⟨octetOf x 2⟩, ⟨octetOf x 1⟩, ⟨octetOf x 0⟩] := by
    have e := congrArg BitVec.toNat (pack_octets x)
    rw [packWord_toNat] at e
    rw [← e]
    simp only [num, List.foldl_cons, List.foldl_nil, ← UInt8.toNat_toBitVec]
    ring
  have e := be_num [⟨octetOf x 3⟩, ⟨octetOf x 2⟩, ⟨octetOf x 1⟩, ⟨octetOf x 0⟩]
  rw [← this] at e
  rw [show (4 : Nat) = List.length [(⟨octetOf x 3⟩ : UInt8), ⟨octetOf x 2⟩, ⟨octetOf x 1⟩, ⟨octetOf x 0⟩] from rfl, e]
  rfl

theorem range_getD (f : Nat → α) (n i : Nat) (d : α) (h : i < n) : ((List.range n).map f).getD i d = f i := by
  simp [List.getD_eq_getElem?_getD, h]

theorem flatMap_pair_getD (f g : Nat → α) (d : α) : ∀ (n i : Nat), i < 2 * n →
    ((List.range n).flatMap fun h => [f h, g h]).getD i d = if i % 2 = 0 then f (i / 2) else g (i / 2) := by
  intro n
  induction n with
  | zero => intro i h; omega
  | succ n ih =>
    intro i h
    have hl : ((List.range n).flatMap fun h => [f h, g h]).length = 2 * n := by simp [mul_comm]
    rw [List.range_succ, List.flatMap_append, List.getD_eq_getElem?_getD]
    by_cases hi : i < 2 * n
    · rw [List.getElem?_append_left (by omega), ← List.getD_eq_getElem?_getD, ih i hi]
    · rw [List.getElem?_append_right (by omega), hl]
      have : i = 2 * n ∨ i = 2 * n + 1 := by omega
      rcases this with rfl | rfl
      · simp
      · simp [show (2 * n + 1) / 2 = n by omega]

/-- What `setkey` computes. -/
structure TfStd (o : TfObj) (KEY : Bytes) : Prop where
  set : o.keyset = true
  L : ∀ j, j < 40 → tfL o j = Std.Twofish.K KEY j
  Mk : ∀ x i, x < 4 → tfMkAt o x i = tfMk (Std.Twofish.S KEY) x i

theorem tfSetkey_std (KEY : Bytes) (h : KEY.length = 16 ∨ KEY.length = 24 ∨ KEY.length = 32) :
    ∃ o, twofish.make KEY = .ok o ∧ TfStd o KEY := by
  have hn : KEY.length % 256 = KEY.length := by omega
  simp only [SymCipher.make, twofish, tfSetkey, hn]
  rw [if_neg (by simp), if_neg (by omega)]
  have hk : Std.Twofish.k KEY = KEY.length / 8 := rfl
  have w : ∀ i, i < 2 * (KEY.length / 8) → ((List.range (2 * (KEY.length / 8))).map fun i => wordLE KEY (4 * i)).getD i 0 =
      Std.Twofish.M KEY i := by
    intro i hi
    rw [range_getD _ _ _ _ hi, wordLE_std _ _ (by omega)]
  have e1 : ((List.range (KEY.length / 8)).map fun i =>
      ((List.range (2 * (KEY.length / 8))).map fun i => wordLE KEY (4 * i)).getD (2 * i) 0) = Std.Twofish.Me KEY := by
    apply List.map_congr_left
    intro i hi
    rw [List.mem_range] at hi
    exact w _ (by omega)
  have e2 : ((List.range (KEY.length / 8)).map fun i =>
      ((List.range (2 * (KEY.length / 8))).map fun i => wordLE KEY (4 * i)).getD (2 * i + 1) 0) = Std.Twofish.Mo KEY := by
    apply List.map_congr_left
    intro i hi
    rw [List.mem_range] at hi
    exact w _ (by omega)
  have e3 : ((List.range (KEY.length / 8)).map fun i =>
      tfReduce (((List.range (2 * (KEY.length / 8))).map fun i => wordLE KEY (4 * i)).getD (2 * i) 0)
        (((List.range (2 * (KEY.length / 8))).map fun i => wordLE KEY (4 * i)).getD (2 * i + 1) 0)).reverse =
      Std.Twofish.S KEY := by
    unfold Std.Twofish.S
    rw [hk]
    congr 1
    apply List.map_congr_left
    intro i hi
    rw [List.mem_range] at hi
    rw [w _ (by omega), w _ (by omega), tfReduce_std]
  rw [e1, e2, e3]
  have l1 : (Std.Twofish.Me KEY).length ≤ 4 := by simp [Std.Twofish.Me, hk]; omega
  have l2 : (Std.Twofish.Mo KEY).length ≤ 4 := by simp [Std.Twofish.Mo, hk]; omega
  refine ⟨_, rfl, ⟨rfl, ?_, ?_⟩⟩
  · intro j hj
    unfold tfL
    simp only
    rw [flatMap_pair_getD _ _ _ _ _ (by omega)]
    have ha : ∀ i, tfH ((0x01010101 : BitVec 32) * BitVec.ofNat 32 (2 * i)) (Std.Twofish.Me KEY) = Std.Twofish.A KEY i := by
      intro i
      rw [tfH_std _ _ l1, Std.Twofish.A, BitVec.mul_comm]
      rfl
    have hb : ∀ i, rol (tfH ((0x01010101 : BitVec 32) * BitVec.ofNat 32 (2 * i) + 0x01010101) (Std.Twofish.Mo KEY)) 8 32 =
        Std.Twofish.B KEY i := by
      intro i
      have e : (0x01010101 : BitVec 32) * BitVec.ofNat 32 (2 * i) + 0x01010101 =
          BitVec.ofNat 32 (2 * i + 1) * Std.Twofish.rho := by
        rw [show Std.Twofish.rho = 0x01010101 from rfl, BitVec.ofNat_add, BitVec.mul_comm (_ + _), BitVec.mul_add]
        rw [show (0x01010101 : BitVec 32) * BitVec.ofNat 32 1 = 0x01010101 from rfl]
      rw [e, tfH_std _ _ l2, Std.Twofish.B, rol_eq (by norm_num) _ _ (by norm_num) (by norm_num)]
    simp only [ha, hb, Std.Twofish.K]
    split
    · rfl
    · rw [rol_eq (by norm_num) _ _ (by norm_num) (by norm_num)]
      congr 2
  · intro x i hx
    unfold tfMkAt
    have := i.isLt
    simp only
    rw [range_getD _ _ _ _ (by omega)]
    rw [show (256 * x + i.toNat) / 256 = x by omega, show (256 * x + i.toNat) % 256 = i.toNat by omega]
    simp

theorem S_length (KEY : Bytes) : (Std.Twofish.S KEY).length = KEY.length / 8 := by simp [Std.Twofish.S, Std.Twofish.k]

theorem tfMk_std (s : List (BitVec 32)) (hs : s.length = 2 ∨ s.length = 3 ∨ s.length = 4) (X : BitVec 32) :
    tfMk s 0 (octetOf X 0) ^^^ tfMk s 1 (octetOf X 1) ^^^ tfMk s 2 (octetOf X 2) ^^^ tfMk s 3 (octetOf X 3) =
      Std.Twofish.h X s := by
  unfold tfMk Std.Twofish.h
  simp only [octetOf_std, (tfQ_std _).1, (tfQ_std _).2]
  rcases hs with hs | hs | hs <;> simp [hs, tfM_mds]

section
variable {o : TfObj} {KEY : Bytes} (h : TfStd o KEY) (hl : KEY.length = 16 ∨ KEY.length = 24 ∨ KEY.length = 32)
include h hl

theorem tfG0_std (X : BitVec 32) : tfG0 o X = Std.Twofish.g KEY X := by
  unfold tfG0
  rw [h.Mk _ _ (by omega), h.Mk _ _ (by omega), h.Mk _ _ (by omega), h.Mk _ _ (by omega), tfMk_std _ (by rw [S_length]; omega)]
  rfl

theorem tfG1_std (X : BitVec 32) : tfG1 o X = Std.Twofish.g KEY (X.rotateLeft 8) := by
  rw [← tfG0_std h hl, ← rol_eq (w := 32) (by norm_num) X 8 (by norm_num) (by norm_num)]
  unfold tfG1 tfG0
  have := octetOf_rol X 1
  simp only [Nat.mul_one] at this
  rw [this 0 (by omega) (by omega) (by omega), this 1 (by omega) (by omega) (by omega), this 2 (by omega) (by omega) (by omega), this 3 (by omega) (by omega) (by omega)]

/-- The four words. -/
def tfBlk (q : Quad) : Std.Twofish.Block := (q.a, q.b, q.c, q.d)

theorem tfEncRound_std (q : Quad) (i : Nat) (hi : i < 8) :
    tfBlk (tfEncRound o q i) = Std.Twofish.round KEY (Std.Twofish.round KEY (tfBlk q) (2 * i)) (2 * i + 1) := by
  obtain ⟨a, b, c, d⟩ := q
  simp only [tfEncRound, tfBlk, Std.Twofish.round]
  simp only [tfG0_std h hl, tfG1_std h hl, rol_eq (w := 32) (by norm_num) _ 1 (by norm_num) (by norm_num),
    ror_eq (w := 32) (by norm_num) _ 1 (by norm_num) (by norm_num)]
  rw [h.L _ (by omega), h.L _ (by omega), h.L _ (by omega), h.L _ (by omega)]
  rw [show 2 * (2 * i) + 8 = 4 * i + 8 by omega, show 2 * (2 * i) + 9 = 4 * i + 9 by omega,
    show 2 * (2 * i + 1) + 8 = 4 * i + 10 by omega, show 2 * (2 * i + 1) + 9 = 4 * i + 11 by omega]

theorem tfRounds_std (q : Quad) : ∀ n, n ≤ 8 →
    tfBlk ((List.range n).foldl (tfEncRound o) q) = (List.range (2 * n)).foldl (Std.Twofish.round KEY) (tfBlk q) := by
  intro n
  induction n with
  | zero => intro _; rfl
  | succ n ih =>
    intro hn
    rw [List.range_succ, List.foldl_append, List.foldl_cons, List.foldl_nil, tfEncRound_std h hl _ _ (by omega), ih (by omega),
      show 2 * (n + 1) = 2 * n + 1 + 1 by omega, List.range_succ, List.range_succ]
    simp only [List.foldl_append, List.foldl_cons, List.foldl_nil]

end

theorem twofish_std (KEY : Bytes) (hl : KEY.length = 16 ∨ KEY.length = 24 ∨ KEY.length = 32) :
    ∃ o, twofish.make KEY = .ok o ∧ ∀ b, b.length = 16 → (twofish.encrypt o b).2 = .ok (Std.Twofish.encrypt KEY b) := by
  obtain ⟨o, ho, h⟩ := tfSetkey_std KEY hl
  refine ⟨o, ho, ?_⟩
  intro b hb
  simp only [twofish]
  rw [tfRun_eq h.set hb, tfBlock]
  simp only [if_true]
  rw [tfOut_ok]
  congr 1
  have hr := tfRounds_std h hl ((tfIn b).xor ⟨tfL o 0, tfL o 1, tfL o 2, tfL o 3⟩) 8 (by omega)
  have hin : tfBlk ((tfIn b).xor ⟨tfL o 0, tfL o 1, tfL o 2, tfL o 3⟩) =
      (Std.Twofish.word b 0 ^^^ Std.Twofish.K KEY 0, Std.Twofish.word b 1 ^^^ Std.Twofish.K KEY 1,
        Std.Twofish.word b 2 ^^^ Std.Twofish.K KEY 2, Std.Twofish.word b 3 ^^^ Std.Twofish.K KEY 3) := by
    simp only [tfBlk, Quad.xor, tfIn]
    rw [h.L _ (by omega), h.L _ (by omega), h.L _ (by omega), h.L _ (by omega)]
    have w := wordLE_std b
    rw [show Std.Twofish.word b = Std.Twofish.M b from rfl, ← w 0 (by omega), ← w 1 (by omega), ← w 2 (by omega), ← w 3 (by omega)]
  rw [hin] at hr
  rw [Std.Twofish.encrypt]
  simp only []
  rw [← hr]
  generalize (List.range 8).foldl (tfEncRound o) _ = q
  simp only [tfBlk, quadLE, Quad.xor, octets_std]
  rw [h.L _ (by omega), h.L _ (by omega), h.L _ (by omega), h.L _ (by omega)]

end OpenPGP
