import Verif.Lemmas.Idea
import Verif.Spec.Idea

/-! `src/Encryptions/IDEA.cpp` computes IDEA. -/
namespace OpenPGP
open Std.Idea

theorem ideaMult_std (a b : BitVec 16) : ideaMult a b = mul a b := by
  unfold mul
  have h : rep a * rep b % (2 ^ 16 + 1) = ideaVal (ideaMult a b) := by rw [ideaMult_val]; rfl
  rw [h]
  unfold ideaVal
  split
  · rename_i h; rw [h]; rfl
  · simp

theorem rotateLeft_rotateLeft {w : Nat} (x : BitVec w) (a b : Nat) :
    (x.rotateLeft a).rotateLeft b = x.rotateLeft (a + b) := by
  rcases Nat.eq_zero_or_pos w with rfl | hw
  · exact Subsingleton.elim _ _
  apply BitVec.eq_of_getLsbD_eq
  intro i hi
  have ha := Nat.mod_lt a hw
  have hb := Nat.mod_lt b hw
  have hab := Nat.mod_lt (a + b) hw
  have hc : (a + b) % w = if a % w + b % w < w then a % w + b % w else a % w + b % w - w := by
    rw [Nat.add_mod]
    split
    · exact Nat.mod_eq_of_lt (by assumption)
    · rw [Nat.mod_eq_sub_mod (by omega), Nat.mod_eq_of_lt (by omega)]
  simp only [BitVec.getLsbD_rotateLeft]
  generalize a % w = a' at *
  generalize b % w = b' at *
  generalize (a + b) % w = c at *
  by_cases h1 : i < b' <;> by_cases h2 : i < c <;> by_cases h3 : w - b' + i < a' <;> by_cases h4 : i - b' < a' <;>
    split at hc <;>
    simp only [h1, h2, h3, h4, decide_true, decide_false, cond_true, cond_false] <;>
    first
      | omega
      | (have e1 : decide (w - b' + i < w) = true := decide_eq_true (by omega)
         have e2 : decide (i - b' < w) = true := decide_eq_true (by omega)
         have e3 : decide (i < w) = true := decide_eq_true (by omega)
         simp only [e1, e3, Bool.true_and]
         congr 1; omega)
      | (have e2 : decide (i - b' < w) = true := decide_eq_true (by omega)
         have e3 : decide (i < w) = true := decide_eq_true (by omega)
         simp only [e2, e3, Bool.true_and]
         congr 1; omega)
      | (congr 1; omega)

theorem ideaRot (key : BitVec 128) : (key ++ key).extractLsb' (128 - 25) 128 = key.rotateLeft 25 := by
  apply BitVec.eq_of_getLsbD_eq
  intro i hi
  rw [BitVec.getLsbD_extractLsb', BitVec.getLsbD_append, BitVec.getLsbD_rotateLeft]
  by_cases h : i < 25
  · have : 128 - 25 + i < 128 := by omega
    have h' : i < 25 % 128 := by omega
    simp only [hi, this, h', decide_true, cond_true, Bool.true_and, if_true]
  · have h1 : ¬ (128 - 25 + i < 128) := by omega
    have h' : ¬ (i < 25 % 128) := by omega
    simp only [hi, h1, h', decide_true, decide_false, cond_false, Bool.true_and, if_false]
    rw [show 128 - 25 + i - 128 = i - 25 % 128 by omega]

theorem ideaSchedule_getD (n : Nat) (key : BitVec 128) (i : Nat) (h : i < 8 * n) :
    (ideaSchedule n key).getD i 0 = (key.rotateLeft (25 * (i / 8))).extractLsb' (16 * (7 - i % 8)) 16 := by
  induction n generalizing key i with
  | zero => omega
  | succ n ih =>
    unfold ideaSchedule
    by_cases hi : i < 8
    · rw [List.getD_append _ _ _ _ (by simpa using hi)]
      have : i / 8 = 0 := by omega
      rw [this, show i % 8 = i by omega]
      have hz : key.rotateLeft (25 * 0) = key := by
        apply BitVec.eq_of_getLsbD_eq
        intro j hj
        rw [BitVec.getLsbD_rotateLeft]
        simp [hj]
      rw [hz]
      simp [List.getD, hi]
    · rw [List.getD_append_right _ _ _ _ (by simpa using Nat.le_of_not_lt hi)]
      simp only [List.length_map, List.length_range]
      rw [ih _ _ (by omega), ideaRot, rotateLeft_rotateLeft]
      have h1 : 25 + 25 * ((i - 8) / 8) = 25 * (i / 8) := by omega
      have h2 : (i - 8) % 8 = i % 8 := by omega
      rw [h1, h2]

/-- The four words. -/
def quad16Block (q : Quad16) : Block := (q.a, q.b, q.c, q.d)

theorem wordAt_std (b : Bytes) (i : Nat) : wordAt 16 b i 2 = word b i := by
  unfold wordAt word
  rw [toint256_small _ (by simp)]

theorem ideaMul_comm (a b : BitVec 16) : mul a b = mul b a := by unfold mul; rw [Nat.mul_comm]

theorem idea_std (KEY : Bytes) (h : KEY.length = 16) :
    ∃ o, idea.make KEY = .ok o ∧ ∀ b : Bytes, b.length = 8 → (idea.encrypt o b).2 = .ok (Std.Idea.encrypt KEY b) := by
  refine ⟨⟨true, [] ++ (ideaSchedule 7 (BitVec.ofNat 128 (num KEY))).take 52⟩, ?_, ?_⟩
  · simp only [SymCipher.make, idea, ideaSetkey]
    rw [if_neg (by simp), if_neg (by omega)]
  · intro b hb
    simp only [idea, ideaEncrypt, Bool.not_true, Bool.false_eq_true, if_false, hb, ne_eq, not_true]
    rw [ideaBlock_eq, List.nil_append]
    set k := (ideaSchedule 7 (BitVec.ofNat 128 (num KEY))).take 52 with hk
    have key : ∀ x y, x ≤ 8 → y < 6 → (x = 8 → y < 4) → ideaKeyAt (ideaKeys k) x y = subkey KEY (6 * x + y) := by
      intro x y hx hy h8
      rw [ideaKeyAt_keys _ _ _ hx hy h8]
      have hlt : 6 * x + y < 52 := by omega
      rw [hk, List.getD, List.getElem?_take, if_pos hlt, ← List.getD, ideaSchedule_getD _ _ _ (by omega)]
      rfl
    have hround : ∀ (q : Quad16) (r : Nat), r < 8 →
        quad16Block (ideaS (ideaMA (ideaKeyAt (ideaKeys k) r) (ideaA (ideaKeyAt (ideaKeys k) r) q))) =
          round KEY (quad16Block q) r := by
      intro q r hr
      simp only [quad16Block, ideaS, ideaMA, ideaA, Std.Idea.round, ideaMult_std]
      rw [key r 0 (by omega) (by omega) (by omega), key r 1 (by omega) (by omega) (by omega),
        key r 2 (by omega) (by omega) (by omega), key r 3 (by omega) (by omega) (by omega),
        key r 4 (by omega) (by omega) (by omega), key r 5 (by omega) (by omega) (by omega)]
      simp only [show ∀ j, 6 * r + (j + 1) - 1 = 6 * r + j from fun j => by omega]
      generalize mul q.a _ = x1
      generalize mul q.d _ = x4
      rw [ideaMul_comm (subkey KEY (6 * r + 4)), ideaMul_comm (subkey KEY (6 * r + 5))]
      rw [BitVec.add_comm (mul _ (subkey KEY (6 * r + 4))) (_ ^^^ _)]
    have hfold : ∀ (L : List Nat) (q : Quad16), (∀ r ∈ L, r < 8) →
        quad16Block (L.foldl (fun q x => ideaS (ideaMA (ideaKeyAt (ideaKeys k) x) (ideaA (ideaKeyAt (ideaKeys k) x) q))) q) =
          L.foldl (round KEY) (quad16Block q) := by
      intro L
      induction L with
      | nil => intro q _; rfl
      | cons r L ih =>
        intro q hL
        simp only [List.foldl_cons]
        rw [ih _ (fun i hi => hL i (List.mem_cons_of_mem _ hi)), hround _ _ (hL r List.mem_cons_self)]
    congr 1
    unfold ideaCore Std.Idea.encrypt
    have hl : quad16Block (ideaIn b) = load b := by
      simp only [quad16Block, ideaIn, load, wordAt_std]
    rw [← hl, ← hfold _ _ (fun r hr => List.mem_range.mp hr)]
    generalize (List.range 8).foldl _ (ideaIn b) = q
    simp only [quad16Bytes, ideaA, ideaS, quad16Block, final, store, ideaMult_std]
    rw [key 8 0 (by omega) (by omega) (by omega), key 8 1 (by omega) (by omega) (by omega),
      key 8 2 (by omega) (by omega) (by omega), key 8 3 (by omega) (by omega) (by omega)]

end OpenPGP
