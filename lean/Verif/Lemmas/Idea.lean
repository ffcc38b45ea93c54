import Verif.Model.Idea
import Verif.Lemmas.Blowfish
import Mathlib.Data.ZMod.Basic
import Mathlib.Data.Nat.Prime.Basic
import Mathlib.Tactic.NormNum.Prime
import Mathlib.Tactic.LinearCombination
import Mathlib.Tactic.Ring

/-! IDEA: multiplication modulo 65537, its inverses, and the rounds. -/
namespace OpenPGP

theorem prime65537 : Nat.Prime 65537 := by norm_num

/-- The number a 16-bit factor stands for. -/
def ideaVal (a : BitVec 16) : Nat := if a = 0 then 65536 else a.toNat

theorem ideaVal_pos (a : BitVec 16) : 0 < ideaVal a := by
  unfold ideaVal
  split
  · omega
  · rename_i h
    rcases Nat.eq_zero_or_pos a.toNat with h0 | h0
    · exact absurd (BitVec.eq_of_toNat_eq (by simpa using h0)) h
    · exact h0

theorem ideaVal_le (a : BitVec 16) : ideaVal a ≤ 65536 := by
  unfold ideaVal
  split
  · omega
  · have := a.isLt; omega

theorem ideaVal_inj {a b : BitVec 16} (h : ideaVal a = ideaVal b) : a = b := by
  have ha := a.isLt
  have hb := b.isLt
  unfold ideaVal at h
  split at h <;> split at h
  · simp_all
  · omega
  · omega
  · exact BitVec.eq_of_toNat_eq h

theorem ideaMult_val (a b : BitVec 16) : ideaVal (ideaMult a b) = ideaVal a * ideaVal b % 65537 := by
  by_cases h : a = 0 ∧ b = 0
  · obtain ⟨rfl, rfl⟩ := h
    decide
  · have hm : ideaMult a b = (let v := ideaVal a * ideaVal b % 2 ^ 32 % 65537; if v = 65536 then 0 else BitVec.ofNat 16 v) := by
      unfold ideaMult ideaVal
      rw [if_neg h]
    have hlt : ideaVal a * ideaVal b < 2 ^ 32 := by
      rcases Nat.lt_or_ge (ideaVal a) 65536 with h1 | h1
      · have := ideaVal_le b
        calc ideaVal a * ideaVal b ≤ 65535 * 65536 := Nat.mul_le_mul (by omega) this
          _ < 2 ^ 32 := by norm_num
      · rcases Nat.lt_or_ge (ideaVal b) 65536 with h2 | h2
        · have := ideaVal_le a
          calc ideaVal a * ideaVal b ≤ 65536 * 65535 := Nat.mul_le_mul this (by omega)
            _ < 2 ^ 32 := by norm_num
        · exfalso
          apply h
          constructor
          · by_contra hz
            simp only [ideaVal, if_neg hz] at h1
            have := a.isLt; omega
          · by_contra hz
            simp only [ideaVal, if_neg hz] at h2
            have := b.isLt; omega
    rw [hm, Nat.mod_eq_of_lt hlt]
    simp only
    set v := ideaVal a * ideaVal b % 65537 with hv
    have hv0 : v ≠ 0 := by
      intro hz
      have hd : 65537 ∣ ideaVal a * ideaVal b := Nat.dvd_of_mod_eq_zero (by rw [← hv]; exact hz)
      rcases (Nat.Prime.dvd_mul prime65537).mp hd with h' | h'
      · have := Nat.le_of_dvd (ideaVal_pos a) h'
        have := ideaVal_le a; omega
      · have := Nat.le_of_dvd (ideaVal_pos b) h'
        have := ideaVal_le b; omega
    have hvlt : v < 65537 := Nat.mod_lt _ (by norm_num)
    split
    · rename_i h1
      simp [ideaVal, h1]
    · rename_i h1
      have hto : (BitVec.ofNat 16 v).toNat = v := by
        rw [BitVec.toNat_ofNat, Nat.mod_eq_of_lt (by omega)]
      have hne : BitVec.ofNat 16 v ≠ 0 := by
        intro hz
        have := congrArg BitVec.toNat hz
        rw [hto] at this
        exact hv0 (by simpa using this)
      rw [ideaVal, if_neg hne, hto]

theorem ideaMult_assoc (a b c : BitVec 16) : ideaMult (ideaMult a b) c = ideaMult a (ideaMult b c) := by
  apply ideaVal_inj
  simp only [ideaMult_val]
  rw [Nat.mod_mul_mod, Nat.mul_mod_mod, Nat.mul_assoc]

theorem ideaMult_comm (a b : BitVec 16) : ideaMult a b = ideaMult b a := by
  apply ideaVal_inj
  simp only [ideaMult_val, Nat.mul_comm]

theorem ideaMult_one (a : BitVec 16) : ideaMult a 1 = a := by
  apply ideaVal_inj
  rw [ideaMult_val]
  have h1 : ideaVal 1 = 1 := by decide
  have := ideaVal_le a
  rw [h1, Nat.mul_one, Nat.mod_eq_of_lt (by omega)]

/-- The loop of `invmod` keeps these relations and ends. -/
theorem invmodLoop_ok (A b0 : Nat) : ∀ (fuel a b : Nat) (y lasty : Int), b < a → b + 1 ≤ fuel →
    (A : Int) ∣ lasty * b0 - a → (A : Int) ∣ y * b0 - b → Nat.gcd a b = Nat.gcd A b0 →
    ((0 ≤ y ∧ lasty ≤ 0 ∧ y * a - lasty * b = A ∧ -lasty ≤ y) ∨ (y ≤ 0 ∧ 0 ≤ lasty ∧ lasty * b - y * a = A ∧ lasty ≤ -y)) →
    ∃ v : Int, invmodLoop fuel a b y lasty = .ok v ∧ (A : Int) ∣ v * b0 - Nat.gcd A b0 ∧
      v * Nat.gcd A b0 ≤ A ∧ -A ≤ v * Nat.gcd A b0 := by
  intro fuel
  induction fuel with
  | zero => intro a b y lasty _ hf; omega
  | succ fuel ih =>
    intro a b y lasty hba hf h1 h2 hg hs
    unfold invmodLoop
    by_cases hb : b = 0
    · subst hb
      rw [if_neg (by simp)]
      rw [Nat.gcd_zero_right] at hg
      refine ⟨lasty, rfl, by rw [← hg]; exact h1, ?_, ?_⟩
      · rw [← hg]
        rcases hs with ⟨s1, s2, s3, s4⟩ | ⟨s1, s2, s3, s4⟩
        · nlinarith [Int.natCast_nonneg a]
        · nlinarith [Int.natCast_nonneg a]
      · rw [← hg]
        rcases hs with ⟨s1, s2, s3, s4⟩ | ⟨s1, s2, s3, s4⟩
        · nlinarith [Int.natCast_nonneg a]
        · nlinarith [Int.natCast_nonneg a]
    · rw [if_pos hb]
      have hq : 1 ≤ a / b := (Nat.one_le_div_iff (by omega)).mpr (by omega)
      have hr : a % b < b := Nat.mod_lt _ (by omega)
      have hdiv : (a : Int) = (b : Int) * (a / b : Nat) + (a % b : Nat) := by
        exact_mod_cast (Nat.div_add_mod a b).symm
      apply ih b (a % b) _ _ hr (by omega) h2
      · have : (lasty - ((a / b : Nat) : Int) * y) * b0 - ((a % b : Nat) : Int) =
            (lasty * b0 - a) - ((a / b : Nat) : Int) * (y * b0 - b) := by
          rw [hdiv]; ring
        rw [this]
        exact Int.dvd_sub h1 (Dvd.dvd.mul_left h2 _)
      · rw [← hg, Nat.gcd_comm b (a % b), ← Nat.gcd_rec, Nat.gcd_comm]
      · have hq' : (1 : Int) ≤ ((a / b : Nat) : Int) := by exact_mod_cast hq
        rcases hs with ⟨s1, s2, s3, s4⟩ | ⟨s1, s2, s3, s4⟩
        · right
          refine ⟨by nlinarith, s1, ?_, by nlinarith⟩
          rw [← s3, hdiv]; ring
        · left
          refine ⟨by nlinarith, s1, ?_, by nlinarith⟩
          rw [← s3, hdiv]; ring

theorem invmod_ok (k : BitVec 16) : ∃ z : BitVec 16, (do
      let v ← invmod 65537 k.toNat
      pure (BitVec.ofInt 16 v) : Out (BitVec 16)) = .ok z ∧ ideaMult k z = 1 := by
  have hk := k.isLt
  by_cases h0 : k = 0
  · subst h0
    exact ⟨0, by decide, by decide⟩
  · have hk0 : 0 < k.toNat := by
      rcases Nat.eq_zero_or_pos k.toNat with h | h
      · exact absurd (BitVec.eq_of_toNat_eq (by simpa using h)) h0
      · exact h
    have hg : Nat.gcd 65537 k.toNat = 1 := by
      apply (Nat.Prime.coprime_iff_not_dvd prime65537).mpr
      intro hd
      have := Nat.le_of_dvd hk0 hd
      omega
    obtain ⟨v, hv, hd, hle, hge⟩ := invmodLoop_ok 65537 k.toNat (k.toNat + 2) 65537 k.toNat 1 0 (by omega) (by omega)
      (by simp) (by simp) rfl (Or.inl ⟨by omega, by omega, by simp, by omega⟩)
    rw [hg] at hd hle hge
    simp only [Nat.cast_one, mul_one] at hd hle hge
    -- the value stored
    set w : Int := if v < 0 then v + 65537 else v with hw
    have hd' : (65537 : Int) ∣ w * k.toNat - 1 := by
      rw [hw]
      split
      · have : (v + 65537) * (k.toNat : Int) - 1 = (v * k.toNat - 1) + 65537 * k.toNat := by ring
        rw [this]
        exact Int.dvd_add (by exact_mod_cast hd) (Int.dvd_mul_right _ _)
      · exact_mod_cast hd
    have hw0 : 0 ≤ w := by rw [hw]; split <;> push_cast at * <;> omega
    have hwle : w ≤ 65537 := by rw [hw]; split <;> push_cast at * <;> omega
    obtain ⟨n, hn⟩ := Int.eq_ofNat_of_zero_le hw0
    have hdn : n * k.toNat % 65537 = 1 := by
      have : (65537 : Int) ∣ (n * k.toNat : Nat) - (1 : Nat) := by
        rw [hn] at hd'
        push_cast
        exact_mod_cast hd'
      have := (Nat.modEq_iff_dvd (n := 65537)).mpr this
      have := this.symm
      unfold Nat.ModEq at this
      omega
    have hn1 : n ≠ 0 := by rintro rfl; simp at hdn
    have hn2 : n ≠ 65537 := by rintro rfl; simp at hdn
    have hn3 : n ≠ 65536 := by
      rintro rfl
      omega
    have hnlt : n < 65536 := by omega
    refine ⟨BitVec.ofNat 16 n, ?_, ?_⟩
    · simp only [invmod]
      rw [hv]
      simp only [Out.ok_bind]
      show Out.ok _ = _
      congr 1
      show BitVec.ofInt 16 (if v < 0 then v + 65537 else v) = _
      rw [← hw, hn]
      exact BitVec.ofInt_natCast 16 n
    · apply ideaVal_inj
      rw [ideaMult_val]
      have hto : (BitVec.ofNat 16 n).toNat = n := by rw [BitVec.toNat_ofNat, Nat.mod_eq_of_lt hnlt]
      have hne : BitVec.ofNat 16 n ≠ 0 := by
        intro hz
        have := congrArg BitVec.toNat hz
        rw [hto] at this
        exact hn1 (by simpa using this)
      rw [ideaVal, if_neg h0, ideaVal, if_neg hne, hto, Nat.mul_comm, hdn]
      decide

theorem twoComp_add (a k : BitVec 16) : a + k + twoComp k = a := by
  apply BitVec.eq_of_toNat_eq
  have h : twoComp k = -k := by
    unfold twoComp
    rw [BitVec.neg_eq_not_add]
    congr 1
    apply BitVec.eq_of_getLsbD_eq
    intro i hi
    have : (65535 : BitVec 16).getLsbD i = true := by
      interval_cases i <;> rfl
    rw [BitVec.getLsbD_xor, BitVec.getLsbD_not, this]
    simp [hi]
  rw [h, BitVec.add_assoc, BitVec.add_right_neg, BitVec.add_zero]

theorem twoComp_add' (a k : BitVec 16) : a + twoComp k + k = a := by
  rw [BitVec.add_assoc, BitVec.add_comm (twoComp k), ← BitVec.add_assoc, twoComp_add]

/-! ## Rounds -/

/-- The key addition. -/
def ideaA (z : Nat → BitVec 16) (q : Quad16) : Quad16 :=
  ⟨ideaMult q.a (z 0), q.b + z 1, q.c + z 2, ideaMult q.d (z 3)⟩

/-- The multiplication-addition structure. -/
def ideaMA (z : Nat → BitVec 16) (q : Quad16) : Quad16 :=
  let t7 := ideaMult (q.a ^^^ q.c) (z 4)
  let t9 := ideaMult ((q.b ^^^ q.d) + t7) (z 5)
  let t10 := t7 + t9
  ⟨q.a ^^^ t9, q.b ^^^ t10, q.c ^^^ t9, q.d ^^^ t10⟩

/-- The middle words exchanged. -/
def ideaS (q : Quad16) : Quad16 := ⟨q.a, q.c, q.b, q.d⟩

theorem ideaS_S (q : Quad16) : ideaS (ideaS q) = q := rfl

theorem xor_pair (x y t : BitVec 16) : (x ^^^ t) ^^^ (y ^^^ t) = x ^^^ y := by
  rw [BitVec.xor_assoc, BitVec.xor_comm y t, ← BitVec.xor_assoc t t y, BitVec.xor_self, BitVec.zero_xor]

theorem ideaMA_MA (z w : Nat → BitVec 16) (h4 : w 4 = z 4) (h5 : w 5 = z 5) (q : Quad16) :
    ideaMA w (ideaMA z q) = q := by
  simp only [ideaMA, h4, h5, xor_pair, xor_xor_self]

/-- Eight rounds and the output transformation. -/
def ideaCore (K : Nat → Nat → BitVec 16) (q : Quad16) : Quad16 :=
  ideaA (K 8) (ideaS ((List.range 8).foldl (fun q x => ideaS (ideaMA (K x) (ideaA (K x) q))) q))

theorem ideaCore_undo (K D : Nat → Nat → BitVec 16)
    (h0 : ∀ q, ideaA (D 0) (ideaA (K 8) q) = q)
    (h8 : ∀ q, ideaA (D 8) (ideaA (K 0) q) = q)
    (hm : ∀ j, 1 ≤ j → j ≤ 7 → ∀ q, ideaA (D j) (ideaS (ideaA (K (8 - j)) q)) = ideaS q)
    (hk : ∀ j, j ≤ 7 → D j 4 = K (7 - j) 4 ∧ D j 5 = K (7 - j) 5) (q : Quad16) :
    ideaCore D (ideaCore K q) = q := by
  have m : ∀ j, j ≤ 7 → ∀ q, ideaMA (D j) (ideaMA (K (7 - j)) q) = q :=
    fun j hj q => ideaMA_MA _ _ (hk j hj).1 (hk j hj).2 q
  simp only [ideaCore, show List.range 8 = [0, 1, 2, 3, 4, 5, 6, 7] from rfl, List.foldl_cons, List.foldl_nil, ideaS_S,
    h0, m 0 (by omega), hm 1 (by omega) (by omega), m 1 (by omega), hm 2 (by omega) (by omega), m 2 (by omega),
    hm 3 (by omega) (by omega), m 3 (by omega), hm 4 (by omega) (by omega), m 4 (by omega),
    hm 5 (by omega) (by omega), m 5 (by omega), hm 6 (by omega) (by omega), m 6 (by omega),
    hm 7 (by omega) (by omega), m 7 (by omega), h8]

/-- The key lists as a function. -/
def ideaKeyAt (keys : List (List (BitVec 16))) (x y : Nat) : BitVec 16 := (keys.getD x []).getD y 0

/-- The octets of four 16-bit words. -/
def quad16Bytes (q : Quad16) : Bytes := be 2 q.a.toNat ++ be 2 q.b.toNat ++ be 2 q.c.toNat ++ be 2 q.d.toNat

theorem quad16Bytes_length (q : Quad16) : (quad16Bytes q).length = 8 := by simp [quad16Bytes]

theorem hexWord16 (w : BitVec 16) : unhexlify (makehex w.toNat 4 false) = .ok (be 2 w.toNat) := unhexlify_makehex _ 2 _

theorem ideaBlock_eq (keys : List (List (BitVec 16))) (b : Bytes) :
    ideaBlock keys b = .ok (quad16Bytes (ideaCore (ideaKeyAt keys) (ideaIn b))) := by
  unfold ideaBlock
  have hr : (fun q x => ideaRound q (keys.getD x [])) =
      fun q x => ideaS (ideaMA (ideaKeyAt keys x) (ideaA (ideaKeyAt keys x) q)) := by
    funext q x
    rfl
  simp only [hr]
  exact unhexlify_append (unhexlify_append (unhexlify_append (hexWord16 _) (hexWord16 _)) (hexWord16 _)) (hexWord16 _)

theorem toint256_be2w (w : BitVec 16) : toint256 (be 2 w.toNat) = w.toNat := by
  have := w.isLt
  rw [toint256_small _ (by simp), num_be, Nat.mod_eq_of_lt (by simpa using this)]

theorem wordAt16_be (pre post : Bytes) (w : BitVec 16) (p : Nat) (hp : pre.length = p) :
    wordAt 16 (pre ++ (be 2 w.toNat ++ post)) p 2 = w := by
  subst hp
  have hl : (be 2 w.toNat).length = 2 := by simp
  unfold wordAt
  rw [List.drop_left, List.take_left' hl, toint256_be2w]
  simp

theorem be_wordAt16 (d : Bytes) (p : Nat) (h : p + 2 ≤ d.length) :
    be 2 (wordAt 16 d p 2).toNat = (d.drop p).take 2 := by
  have hl : ((d.drop p).take 2).length = 2 := by simp; omega
  unfold wordAt
  rw [toint256_small _ (by omega), BitVec.toNat_ofNat]
  have := num_lt ((d.drop p).take 2)
  rw [hl] at this
  rw [Nat.mod_eq_of_lt (by simpa using this)]
  have e := be_num ((d.drop p).take 2)
  rw [hl] at e
  exact e

theorem ideaIn_bytes (q : Quad16) : ideaIn (quad16Bytes q) = q := by
  have h0 := wordAt16_be [] (be 2 q.b.toNat ++ be 2 q.c.toNat ++ be 2 q.d.toNat) q.a 0 rfl
  have h1 := wordAt16_be (be 2 q.a.toNat) (be 2 q.c.toNat ++ be 2 q.d.toNat) q.b 2 (by simp)
  have h2 := wordAt16_be (be 2 q.a.toNat ++ be 2 q.b.toNat) (be 2 q.d.toNat) q.c 4 (by simp)
  have h3 := wordAt16_be (be 2 q.a.toNat ++ be 2 q.b.toNat ++ be 2 q.c.toNat) [] q.d 6 (by simp)
  simp only [List.append_assoc, List.nil_append, List.append_nil] at h0 h1 h2 h3
  simp [ideaIn, quad16Bytes, List.append_assoc, h0, h1, h2, h3]

theorem bytes_ideaIn (d : Bytes) (h : d.length = 8) : quad16Bytes (ideaIn d) = d := by
  simp only [quad16Bytes, ideaIn]
  rw [be_wordAt16 _ _ (by omega), be_wordAt16 _ _ (by omega), be_wordAt16 _ _ (by omega), be_wordAt16 _ _ (by omega)]
  have e1 : (d.drop 6).take 2 = d.drop 6 := List.take_of_length_le (by simp; omega)
  rw [e1, show d.drop 6 = (d.drop 4).drop 2 by simp, List.append_assoc, List.take_append_drop,
    show d.drop 4 = (d.drop 2).drop 2 by simp, List.append_assoc, List.take_append_drop,
    show d.drop 2 = (d.drop 0).drop 2 by simp, List.take_append_drop, List.drop_zero]

/-! ## The decryption keys -/

/-- The inverse stored by `decrypt`. -/
theorem ideaInv_exists (k : List (BitVec 16)) : ∃ inv : Nat → BitVec 16,
    ∀ i, ideaInv k i = .ok (inv i) ∧ ideaMult (k.getD i 0) (inv i) = 1 := by
  have h : ∀ i, ∃ z, ideaInv k i = .ok z ∧ ideaMult (k.getD i 0) z = 1 := fun i => invmod_ok (k.getD i 0)
  choose inv hinv using h
  exact ⟨inv, hinv⟩

/-- The 52 subkeys `decrypt` computes. -/
def ideaDList (k : List (BitVec 16)) (inv : Nat → BitVec 16) : List (BitVec 16) :=
  ((List.range 8).flatMap fun x => [inv (48 - 6 * x), twoComp (k.getD (50 - 6 * x) 0), twoComp (k.getD (49 - 6 * x) 0),
    inv (51 - 6 * x), k.getD (46 - 6 * x) 0, k.getD (47 - 6 * x) 0]) ++
    [inv 0, twoComp (k.getD 1 0), twoComp (k.getD 2 0), inv 3]

theorem ideaDecK_eq (k : List (BitVec 16)) (hk : k.length = 52) (inv : Nat → BitVec 16)
    (h : ∀ i, ideaInv k i = .ok (inv i)) : ideaDecK k = .ok (ideaDList k inv) := by
  have hl : ∀ n x, ideaPushLoop k n x = .ok ((List.range' x n).flatMap fun x =>
      [inv (48 - 6 * x), twoComp (k.getD (50 - 6 * x) 0), twoComp (k.getD (49 - 6 * x) 0),
        inv (51 - 6 * x), k.getD (46 - 6 * x) 0, k.getD (47 - 6 * x) 0]) := by
    intro n
    induction n with
    | zero => intro x; rfl
    | succ n ih =>
      intro x
      simp only [ideaPushLoop, h, ih, Out.ok_bind, List.range'_succ, List.flatMap_cons]
      rfl
  simp only [ideaDecK, hl, h, Out.ok_bind]
  show Out.ok _ = _
  congr 1
  rw [List.append_assoc, List.drop_append, List.drop_eq_nil_of_le (by omega), hk]
  rfl

theorem ideaKeyAt_keys (k : List (BitVec 16)) (x y : Nat) (hx : x ≤ 8) (hy : y < 6) (h : x = 8 → y < 4) :
    ideaKeyAt (ideaKeys k) x y = k.getD (6 * x + y) 0 := by
  by_cases h8 : x = 8
  · subst h8
    have := h rfl
    interval_cases y <;> rfl
  · have : x < 8 := by omega
    interval_cases x <;> interval_cases y <;> rfl

theorem ideaA_undo (z w : Nat → BitVec 16) (h0 : ideaMult (z 0) (w 0) = 1) (h1 : ∀ a, a + z 1 + w 1 = a)
    (h2 : ∀ a, a + z 2 + w 2 = a) (h3 : ideaMult (z 3) (w 3) = 1) (q : Quad16) : ideaA w (ideaA z q) = q := by
  simp only [ideaA, ideaMult_assoc, h0, h3, ideaMult_one, h1, h2]

theorem ideaA_undo_swap (z w : Nat → BitVec 16) (h0 : ideaMult (z 0) (w 0) = 1) (h1 : ∀ a, a + z 1 + w 2 = a)
    (h2 : ∀ a, a + z 2 + w 1 = a) (h3 : ideaMult (z 3) (w 3) = 1) (q : Quad16) :
    ideaA w (ideaS (ideaA z q)) = ideaS q := by
  simp only [ideaA, ideaS, ideaMult_assoc, h0, h3, ideaMult_one, h1, h2]

/-- The keys of `decrypt`, read off. -/
theorem ideaDKeys (k : List (BitVec 16)) (inv : Nat → BitVec 16) :
    let D := ideaKeyAt (ideaSwap (ideaKeys (ideaDList k inv)))
    (D 0 0 = inv 48 ∧ D 0 1 = twoComp (k.getD 49 0) ∧ D 0 2 = twoComp (k.getD 50 0) ∧ D 0 3 = inv 51) ∧
    (D 8 0 = inv 0 ∧ D 8 1 = twoComp (k.getD 1 0) ∧ D 8 2 = twoComp (k.getD 2 0) ∧ D 8 3 = inv 3) ∧
    (∀ j, 1 ≤ j → j ≤ 7 → D j 0 = inv (6 * (8 - j)) ∧ D j 1 = twoComp (k.getD (6 * (8 - j) + 2) 0) ∧
      D j 2 = twoComp (k.getD (6 * (8 - j) + 1) 0) ∧ D j 3 = inv (6 * (8 - j) + 3)) ∧
    (∀ j, j ≤ 7 → D j 4 = k.getD (6 * (7 - j) + 4) 0 ∧ D j 5 = k.getD (6 * (7 - j) + 5) 0) := by
  refine ⟨⟨rfl, rfl, rfl, rfl⟩, ⟨rfl, rfl, rfl, rfl⟩, ?_, ?_⟩
  · intro j h1 h2
    interval_cases j <;> exact ⟨rfl, rfl, rfl, rfl⟩
  · intro j h2
    interval_cases j <;> exact ⟨rfl, rfl⟩

theorem ideaCore_dec_enc (k : List (BitVec 16)) (inv : Nat → BitVec 16)
    (h : ∀ i, ideaMult (k.getD i 0) (inv i) = 1) (q : Quad16) :
    ideaCore (ideaKeyAt (ideaSwap (ideaKeys (ideaDList k inv)))) (ideaCore (ideaKeyAt (ideaKeys k)) q) = q := by
  obtain ⟨⟨a0, a1, a2, a3⟩, ⟨b0, b1, b2, b3⟩, hm, hk⟩ := ideaDKeys k inv
  have K := fun x y hx hy h => ideaKeyAt_keys k x y hx hy h
  apply ideaCore_undo
  · intro q
    apply ideaA_undo
    · rw [a0, K 8 0 (by omega) (by omega) (by omega)]; exact h 48
    · intro a; rw [a1, K 8 1 (by omega) (by omega) (by omega)]; exact twoComp_add _ _
    · intro a; rw [a2, K 8 2 (by omega) (by omega) (by omega)]; exact twoComp_add _ _
    · rw [a3, K 8 3 (by omega) (by omega) (by omega)]; exact h 51
  · intro q
    apply ideaA_undo
    · rw [b0, K 0 0 (by omega) (by omega) (by omega)]; exact h 0
    · intro a; rw [b1, K 0 1 (by omega) (by omega) (by omega)]; exact twoComp_add _ _
    · intro a; rw [b2, K 0 2 (by omega) (by omega) (by omega)]; exact twoComp_add _ _
    · rw [b3, K 0 3 (by omega) (by omega) (by omega)]; exact h 3
  · intro j h1 h7 q
    obtain ⟨c0, c1, c2, c3⟩ := hm j h1 h7
    apply ideaA_undo_swap
    · rw [c0, K (8 - j) 0 (by omega) (by omega) (by omega)]; exact h _
    · intro a; rw [c2, K (8 - j) 1 (by omega) (by omega) (by omega)]; exact twoComp_add _ _
    · intro a; rw [c1, K (8 - j) 2 (by omega) (by omega) (by omega)]; exact twoComp_add _ _
    · rw [c3, K (8 - j) 3 (by omega) (by omega) (by omega)]; exact h _
  · intro j hj
    obtain ⟨c4, c5⟩ := hk j hj
    rw [c4, c5, K (7 - j) 4 (by omega) (by omega) (by omega), K (7 - j) 5 (by omega) (by omega) (by omega)]
    exact ⟨rfl, rfl⟩

theorem ideaCore_enc_dec (k : List (BitVec 16)) (inv : Nat → BitVec 16)
    (h : ∀ i, ideaMult (k.getD i 0) (inv i) = 1) (q : Quad16) :
    ideaCore (ideaKeyAt (ideaKeys k)) (ideaCore (ideaKeyAt (ideaSwap (ideaKeys (ideaDList k inv)))) q) = q := by
  obtain ⟨⟨a0, a1, a2, a3⟩, ⟨b0, b1, b2, b3⟩, hm, hk⟩ := ideaDKeys k inv
  have K := fun x y hx hy h => ideaKeyAt_keys k x y hx hy h
  have h' : ∀ i, ideaMult (inv i) (k.getD i 0) = 1 := fun i => by rw [ideaMult_comm]; exact h i
  apply ideaCore_undo
  · intro q
    apply ideaA_undo
    · rw [b0, K 0 0 (by omega) (by omega) (by omega)]; exact h' 0
    · intro a; rw [b1, K 0 1 (by omega) (by omega) (by omega)]; exact twoComp_add' _ _
    · intro a; rw [b2, K 0 2 (by omega) (by omega) (by omega)]; exact twoComp_add' _ _
    · rw [b3, K 0 3 (by omega) (by omega) (by omega)]; exact h' 3
  · intro q
    apply ideaA_undo
    · rw [a0, K 8 0 (by omega) (by omega) (by omega)]; exact h' 48
    · intro a; rw [a1, K 8 1 (by omega) (by omega) (by omega)]; exact twoComp_add' _ _
    · intro a; rw [a2, K 8 2 (by omega) (by omega) (by omega)]; exact twoComp_add' _ _
    · rw [a3, K 8 3 (by omega) (by omega) (by omega)]; exact h' 51
  · intro j h1 h7 q
    obtain ⟨c0, c1, c2, c3⟩ := hm (8 - j) (by omega) (by omega)
    have e : 8 - (8 - j) = j := by omega
    rw [e] at c0 c1 c2 c3
    apply ideaA_undo_swap
    · rw [c0, K j 0 (by omega) (by omega) (by omega)]; exact h' _
    · intro a; rw [c1, K j 2 (by omega) (by omega) (by omega)]; exact twoComp_add' _ _
    · intro a; rw [c2, K j 1 (by omega) (by omega) (by omega)]; exact twoComp_add' _ _
    · rw [c3, K j 3 (by omega) (by omega) (by omega)]; exact h' _
  · intro j hj
    obtain ⟨c4, c5⟩ := hk (7 - j) (by omega)
    have e : 7 - (7 - j) = j := by omega
    rw [e] at c4 c5
    rw [c4, c5, K j 4 (by omega) (by omega) (by omega), K j 5 (by omega) (by omega) (by omega)]
    exact ⟨rfl, rfl⟩

/-! ## The class -/

theorem ideaSchedule_length (n : Nat) (key : BitVec 128) : (ideaSchedule n key).length = 8 * n := by
  induction n generalizing key with
  | zero => rfl
  | succ n ih => simp only [ideaSchedule, List.length_append, List.length_map, List.length_range, ih]; omega

theorem ideaSetkey_ok (KEY : Bytes) (h : KEY.length = 16) :
    ∃ o, idea.make KEY = .ok o ∧ o.keyset = true ∧ o.k.length = 52 := by
  simp only [SymCipher.make, idea, ideaSetkey]
  rw [if_neg (by simp), if_neg (by omega)]
  refine ⟨_, rfl, rfl, ?_⟩
  rw [List.nil_append, List.length_take, ideaSchedule_length]
  rfl

theorem idea_inverts (KEY : Bytes) (h : KEY.length = 16) : idea.InvertsWith KEY := by
  obtain ⟨o, ho, hs, hk⟩ := ideaSetkey_ok KEY h
  obtain ⟨inv, hinv⟩ := ideaInv_exists o.k
  have hdk := ideaDecK_eq o.k hk inv (fun i => (hinv i).1)
  have henc : ∀ {b : Bytes}, b.length = 8 → idea.encrypt o b = (o, ideaBlock (ideaKeys o.k) b) := by
    intro b hb
    simp [idea, ideaEncrypt, hs, hb]
  have hdec : ∀ {b : Bytes}, b.length = 8 →
      (idea.decrypt o b).2 = ideaBlock (ideaSwap (ideaKeys (ideaDList o.k inv))) b := by
    intro b hb
    simp only [idea, ideaDecrypt, hs, hb, hdk]
    rfl
  refine ⟨o, ho, ?_, ?_⟩
  · intro b hb
    have hb : b.length = 8 := by simp only [idea] at hb; omega
    have hl : ∀ q, (quad16Bytes q).length = b.length := by intro q; rw [quad16Bytes_length, hb]
    have u : (idea.decrypt o (quad16Bytes (ideaCore (ideaKeyAt (ideaKeys o.k)) (ideaIn b)))).2 = .ok b := by
      rw [hdec (quad16Bytes_length _), ideaBlock_eq, ideaIn_bytes, ideaCore_dec_enc o.k inv (fun i => (hinv i).2),
        bytes_ideaIn b hb]
    refine ⟨⟨_, by rw [henc hb, ideaBlock_eq], hl _, ?_, u⟩, ⟨_, by rw [hdec hb, ideaBlock_eq], hl _, ?_⟩⟩
    · rw [henc hb]; exact u
    · rw [henc (quad16Bytes_length _), ideaBlock_eq, ideaIn_bytes, ideaCore_enc_dec o.k inv (fun i => (hinv i).2),
        bytes_ideaIn b hb]
  · intro b hb
    have hb : b.length ≠ 8 := by simp only [idea] at hb; omega
    simp [idea, ideaEncrypt, ideaDecrypt, hs, hb]

end OpenPGP
