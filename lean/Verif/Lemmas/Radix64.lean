import Verif.Model.Radix64
import Verif.Lemmas.Includes

namespace OpenPGP

/-- A complete group of bits (`n` of them). -/
theorem sextets_bits (l : List Bool) (h : l.length % 6 = 0) :
    (sextets l).flatMap (fun v => makebin v 6) = l := by
  induction l using sextets.induct with
  | case1 a b c d e f rest ih =>
    rw [sextets, List.flatMap_cons, ih (by simp at h; omega)]
    have := makebin_tointBits [a, b, c, d, e, f]
    simp only [List.length_cons, List.length_nil] at this
    rw [this]; rfl
  | case2 => rfl
  | case3 l h1 h2 =>
    exfalso
    match l, h1, h2 with
    | [], _, h2 => exact h2 rfl
    | [_], _, _ => simp at h
    | [_, _], _, _ => simp at h
    | [_, _, _], _, _ => simp at h
    | [_, _, _, _], _, _ => simp at h
    | [_, _, _, _, _], _, _ => simp at h
    | a :: b :: c :: d :: e :: f :: r, h1, _ => exact h1 a b c d e f r rfl

theorem sextets_lt (l : List Bool) : ∀ v ∈ sextets l, v < 64 := by
  induction l using sextets.induct with
  | case1 a b c d e f rest ih =>
    intro v hv
    rw [sextets, List.mem_cons] at hv
    rcases hv with rfl | hv
    · exact tointBits_lt [a, b, c, d, e, f]
    · exact ih v hv
  | case2 => simp [sextets]
  | case3 l h1 h2 =>
    intro v hv
    match l, h1, h2 with
    | [], _, h2 => exact absurd rfl h2
    | [a], _, _ => have := tointBits_lt [a]; simp [sextets] at hv this; omega
    | [a, b], _, _ => have := tointBits_lt [a, b]; simp [sextets] at hv this; omega
    | [a, b, c], _, _ => have := tointBits_lt [a, b, c]; simp [sextets] at hv this; omega
    | [a, b, c, d], _, _ => have := tointBits_lt [a, b, c, d]; simp [sextets] at hv this; omega
    | [a, b, c, d, e], _, _ =>
      have := tointBits_lt [a, b, c, d, e]; simp [sextets] at hv this; omega
    | a :: b :: c :: d :: e :: f :: r, h1, _ => exact absurd rfl (h1 a b c d e f r)

theorem flatMap_length_const {α β : Type} (k : Nat) (f : α → List β) (l : List α)
    (h : ∀ a, (f a).length = k) : (l.flatMap f).length = k * l.length := by
  induction l with
  | nil => simp
  | cons a l ih => rw [List.flatMap_cons, List.length_append, ih, h, List.length_cons]; ring

theorem sextets_length (l : List Bool) (h : l.length % 6 = 0) : (sextets l).length = l.length / 6 := by
  have := congrArg List.length (sextets_bits l h)
  rw [flatMap_length_const 6 _ _ (fun v => makebin_length v 6)] at this
  omega

theorem octets_bits (s : Bytes) : octets (s.flatMap fun c => makebin c.toNat 8) = s := by
  induction s with
  | nil => rfl
  | cons c s ih =>
    rw [List.flatMap_cons]
    have hb := tointBits_makebin c.toNat 8
    have hl := makebin_length c.toNat 8
    generalize makebin c.toNat 8 = l at hb hl
    match l, hl with
    | [a, b, c', d, e, f, g, h], _ =>
      simp only [List.cons_append, List.nil_append, octets, ih]
      rw [hb]
      congr 1
      apply UInt8.toNat_inj.mp
      have := c.toNat_lt
      simp

/-- Conditions on the two configurable characters: distinct, not alphanumeric, not `=`. -/
def radixOk (c62 c63 : UInt8) : Prop :=
  c62 ≠ c63 ∧ c62 ≠ 61 ∧ c63 ≠ 61 ∧
  (∀ i < 62, radixChar c62 c63 i ≠ c62) ∧ (∀ i < 62, radixChar c62 c63 i ≠ c63)

theorem radixChar_lt62 (c62 c63 : UInt8) (i : Nat) (h : i < 62) :
    radixBits c62 c63 (radixChar c62 c63 i) = .ok (makebin i 6) ∧ radixChar c62 c63 i ≠ 61 := by
  have key : ∀ i : Fin 62,
      (let c := radixChar 0 0 i.val
       ((65 ≤ c ∧ c ≤ 90 ∧ c.toNat - 65 = i.val) ∨
       (¬ (65 ≤ c ∧ c ≤ 90) ∧ 97 ≤ c ∧ c ≤ 122 ∧ c.toNat - 71 = i.val) ∨
       (¬ (65 ≤ c ∧ c ≤ 90) ∧ ¬ (97 ≤ c ∧ c ≤ 122) ∧ 48 ≤ c ∧ c ≤ 57 ∧ c.toNat + 4 = i.val)) ∧ c ≠ 61) := by
    decide
  have e : radixChar c62 c63 i = radixChar 0 0 i := by
    unfold radixChar; simp only [h, if_true]
  have := key ⟨i, h⟩
  simp only at this
  rw [e]
  refine ⟨?_, this.2⟩
  unfold radixBits
  rcases this.1 with ⟨a, b, c⟩ | ⟨a, b, c, d⟩ | ⟨a, b, c, d, e⟩
  · simp [a, b, c]
  · simp only [a, b, c, d, and_self, if_true, if_false]
  · simp only [a, b, c, d, e, and_self, if_true, if_false]

theorem radixBits_char (c62 c63 : UInt8) (hok : radixOk c62 c63)
    (hn2 : ¬ (65 ≤ c62 ∧ c62 ≤ 90) ∧ ¬ (97 ≤ c62 ∧ c62 ≤ 122) ∧ ¬ (48 ≤ c62 ∧ c62 ≤ 57))
    (hn3 : ¬ (65 ≤ c63 ∧ c63 ≤ 90) ∧ ¬ (97 ≤ c63 ∧ c63 ≤ 122) ∧ ¬ (48 ≤ c63 ∧ c63 ≤ 57))
    (i : Nat) (h : i < 64) :
    radixBits c62 c63 (radixChar c62 c63 i) = .ok (makebin i 6) ∧ radixChar c62 c63 i ≠ 61 := by
  by_cases h2 : i < 62
  · exact radixChar_lt62 c62 c63 i h2
  · obtain rfl | rfl : i = 62 ∨ i = 63 := by omega
    · have e : radixChar c62 c63 62 = c62 := by simp [radixChar]
      rw [e]
      refine ⟨?_, hok.2.1⟩
      unfold radixBits
      rw [if_neg hn2.1, if_neg hn2.2.1, if_neg hn2.2.2, if_pos rfl]
      decide
    · have e : radixChar c62 c63 63 = c63 := by simp [radixChar]
      rw [e]
      refine ⟨?_, hok.2.2.1⟩
      unfold radixBits
      rw [if_neg hn3.1, if_neg hn3.2.1, if_neg hn3.2.2, if_neg (Ne.symm hok.1), if_pos rfl]
      decide

theorem stripPad_replicate (p n : Nat) (l : Bytes) :
    stripPad (List.replicate p 61 ++ l) n = stripPad l (n + p) := by
  induction p generalizing n with
  | zero => simp
  | succ p ih =>
    rw [List.replicate_succ, List.cons_append, stripPad, if_pos rfl, ih]
    congr 1; omega

end OpenPGP
