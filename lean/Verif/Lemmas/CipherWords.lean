import Verif.Model.Aes
import Verif.Lemmas.HashWords
import Verif.Lemmas.HashStd
import Verif.Lemmas.Framing

/-! Words and octets of the block ciphers. -/
namespace OpenPGP

/-- `ROL(x, 0, 32)` with the value `v` for the undefined `x >> 32`: 0 (everything shifted out) or `x` (a machine that
masks the shift count) both make the rotation return `x`. -/
theorem rol_zero_either (x v : BitVec 32) (h : v = 0 ∨ v = x) :
    (v.setWidth 64 ||| ((x.setWidth 64 &&& ((1#64 <<< 32) - 1#64)) <<< (32 - 32))).setWidth 32 = x := by
  apply BitVec.eq_of_getLsbD_eq
  intro i hi
  have h2 : i < 64 := by omega
  simp only [BitVec.getLsbD_or, BitVec.getLsbD_setWidth, BitVec.getLsbD_shiftLeft, BitVec.getLsbD_and,
    getLsbD_mask 32 _ (by norm_num)]
  rcases h with rfl | rfl <;> simp [hi, h2]

theorem rol_zero (x : BitVec 32) : rol x 0 32 = x := by
  have e : (x.setWidth 64 >>> 32) = (0 : BitVec 32).setWidth 64 := by
    apply BitVec.eq_of_getLsbD_eq
    intro i hi
    simp
  have := rol_zero_either x 0 (Or.inl rfl)
  rw [← e] at this
  exact this

theorem ror_zero (x : BitVec 32) : ror x 0 32 = x := by
  apply BitVec.eq_of_getLsbD_eq
  intro i hi
  simp [ror, hi]

theorem octetOf_toNat (w : BitVec 32) (k : Nat) : (octetOf w k).toNat = w.toNat / 2 ^ (8 * k) % 256 := by
  simp [octetOf, Nat.shiftRight_eq_div_pow]

theorem packWord_toNat (a b c d : BitVec 8) :
    (packWord a b c d).toNat = a.toNat * 2 ^ 24 + b.toNat * 2 ^ 16 + c.toNat * 2 ^ 8 + d.toNat := by
  have h1 := a.isLt
  have h2 := b.isLt
  have h3 := c.isLt
  have h4 := d.isLt
  simp only [packWord, BitVec.toNat_add, BitVec.toNat_shiftLeft, BitVec.toNat_setWidth, Nat.shiftLeft_eq]
  omega

theorem octet3_pack (a b c d : BitVec 8) : octetOf (packWord a b c d) 3 = a := by
  apply BitVec.eq_of_toNat_eq
  have h1 := a.isLt; have h2 := b.isLt; have h3 := c.isLt; have h4 := d.isLt
  rw [octetOf_toNat, packWord_toNat]; omega
theorem octet2_pack (a b c d : BitVec 8) : octetOf (packWord a b c d) 2 = b := by
  apply BitVec.eq_of_toNat_eq
  have h1 := a.isLt; have h2 := b.isLt; have h3 := c.isLt; have h4 := d.isLt
  rw [octetOf_toNat, packWord_toNat]; omega
theorem octet1_pack (a b c d : BitVec 8) : octetOf (packWord a b c d) 1 = c := by
  apply BitVec.eq_of_toNat_eq
  have h1 := a.isLt; have h2 := b.isLt; have h3 := c.isLt; have h4 := d.isLt
  rw [octetOf_toNat, packWord_toNat]; omega
theorem octet0_pack (a b c d : BitVec 8) : octetOf (packWord a b c d) 0 = d := by
  apply BitVec.eq_of_toNat_eq
  have h1 := a.isLt; have h2 := b.isLt; have h3 := c.isLt; have h4 := d.isLt
  rw [octetOf_toNat, packWord_toNat]; omega

theorem pack_octets (w : BitVec 32) : packWord (octetOf w 3) (octetOf w 2) (octetOf w 1) (octetOf w 0) = w := by
  apply BitVec.eq_of_toNat_eq
  rw [packWord_toNat]
  simp only [octetOf_toNat]
  have := w.isLt
  omega

theorem rotr_rotl {w : Nat} (x : BitVec w) (n : Nat) (hn : n < w) : (x.rotateLeft n).rotateRight n = x := by
  apply BitVec.eq_of_getLsbD_eq
  intro i hi
  simp only [BitVec.getLsbD_rotateRight, BitVec.getLsbD_rotateLeft, Nat.mod_eq_of_lt hn]
  by_cases h : i < w - n
  · have h1 : ¬ n + i < n := by omega
    have h2 : n + i < w := by omega
    simp [h, h2]
  · have h2 : i - (w - n) < n := by omega
    have h3 : w - n + (i - (w - n)) = i := by omega
    simp [h, h2, h3, hi]

theorem rotl_rotr {w : Nat} (x : BitVec w) (n : Nat) (hn : n < w) : (x.rotateRight n).rotateLeft n = x := by
  apply BitVec.eq_of_getLsbD_eq
  intro i hi
  simp only [BitVec.getLsbD_rotateRight, BitVec.getLsbD_rotateLeft, Nat.mod_eq_of_lt hn]
  by_cases h : i < n
  · have h1 : ¬ w - n + i < w - n := by omega
    have h2 : w - n + i - (w - n) = i := by omega
    have h3 : w - n + i < w := by omega
    simp [h, h3]
  · have h2 : i - n < w - n := by omega
    have h3 : n + (i - n) = i := by omega
    simp [h, h2, h3, hi]

theorem ror_rol {w : Nat} (hw : w ≤ 64) (x : BitVec w) (n : Nat) (h0 : 0 < n) (hn : n < w) :
    ror (rol x n w) n w = x := by
  rw [ror_eq hw _ _ h0 hn, rol_eq hw _ _ h0 hn, rotr_rotl _ _ hn]

theorem rol_ror {w : Nat} (hw : w ≤ 64) (x : BitVec w) (n : Nat) (h0 : 0 < n) (hn : n < w) :
    rol (ror x n w) n w = x := by
  rw [ror_eq hw _ _ h0 hn, rol_eq hw _ _ h0 hn, rotl_rotr _ _ hn]

theorem xor_xor_self {w : Nat} (x k : BitVec w) : x ^^^ k ^^^ k = x := by
  rw [BitVec.xor_assoc, BitVec.xor_self, BitVec.xor_zero]

theorem Quad.xor_xor (q k : Quad) : (q.xor k).xor k = q := by
  simp [Quad.xor, xor_xor_self]

/-- Undoing a loop: the inverse steps in the opposite order. -/
theorem foldl_undo {α β : Type} (f g : α → β → α) (h : ∀ x k, g (f x k) k = x) (L : List β) (x : α) :
    L.reverse.foldl g (L.foldl f x) = x := by
  induction L generalizing x with
  | nil => rfl
  | cons k L ih => simp [List.foldl_append, ih, h]

theorem foldl_hom' {α γ β : Type} (s : α → γ) (f : α → β → α) (g : γ → β → γ)
    (h : ∀ x k, s (f x k) = g (s x) k) (L : List β) (x : α) : s (L.foldl f x) = L.foldl g (s x) := by
  induction L generalizing x with
  | nil => rfl
  | cons k L ih => simp [ih, h]

theorem hexWord (w : BitVec 32) : unhexlify (makehex w.toNat 8 false) = .ok (be 4 w.toNat) := unhexlify_makehex _ 4 _

theorem quadOut_ok (q : Quad) : quadOut q = .ok (be 4 q.a.toNat ++ be 4 q.b.toNat ++ be 4 q.c.toNat ++ be 4 q.d.toNat) := by
  unfold quadOut
  exact unhexlify_append (unhexlify_append (unhexlify_append (hexWord _) (hexWord _)) (hexWord _)) (hexWord _)

theorem wordAt_be4 (pre post : Bytes) (w : BitVec 32) (p : Nat) (hp : pre.length = p) :
    wordAt 32 (pre ++ (be 4 w.toNat ++ post)) p 4 = w := by
  subst hp
  have hl : (be 4 w.toNat).length = 4 := by simp
  unfold wordAt
  rw [List.drop_left, List.take_left' hl, toint256_be4 _ w.isLt]
  simp

theorem quadIn_out (q : Quad) :
    quadIn (be 4 q.a.toNat ++ be 4 q.b.toNat ++ be 4 q.c.toNat ++ be 4 q.d.toNat) = q := by
  have h0 := wordAt_be4 [] (be 4 q.b.toNat ++ be 4 q.c.toNat ++ be 4 q.d.toNat) q.a 0 rfl
  have h1 := wordAt_be4 (be 4 q.a.toNat) (be 4 q.c.toNat ++ be 4 q.d.toNat) q.b 4 (by simp)
  have h2 := wordAt_be4 (be 4 q.a.toNat ++ be 4 q.b.toNat) (be 4 q.d.toNat) q.c 8 (by simp)
  have h3 := wordAt_be4 (be 4 q.a.toNat ++ be 4 q.b.toNat ++ be 4 q.c.toNat) [] q.d 12 (by simp)
  simp only [List.append_assoc, List.nil_append, List.append_nil] at h0 h1 h2 h3
  simp [quadIn, List.append_assoc, h0, h1, h2, h3]

theorem be4_wordAt (d : Bytes) (p : Nat) (h : p + 4 ≤ d.length) :
    be 4 (wordAt 32 d p 4).toNat = (d.drop p).take 4 := by
  have hl : ((d.drop p).take 4).length = 4 := by simp; omega
  unfold wordAt
  rw [toint256_small _ (by omega), BitVec.toNat_ofNat]
  have := num_lt ((d.drop p).take 4)
  rw [hl] at this
  rw [Nat.mod_eq_of_lt (by simpa using this)]
  have e := be_num ((d.drop p).take 4)
  rw [hl] at e
  exact e

theorem out_quadIn (d : Bytes) (h : d.length = 16) :
    be 4 (quadIn d).a.toNat ++ be 4 (quadIn d).b.toNat ++ be 4 (quadIn d).c.toNat ++ be 4 (quadIn d).d.toNat = d := by
  simp only [quadIn]
  rw [be4_wordAt _ _ (by omega), be4_wordAt _ _ (by omega), be4_wordAt _ _ (by omega), be4_wordAt _ _ (by omega)]
  rw [List.drop_zero]
  apply List.ext_getElem
  · simp; omega
  · intro i h1 h2
    simp only [List.getElem_append, List.getElem_take, List.getElem_drop, List.length_append, List.length_take,
      List.length_drop]
    split
    · split
      · split
        · rfl
        · congr 1; omega
      · congr 1; omega
    · congr 1; omega

end OpenPGP
