import Verif.Lemmas.Aes
import Verif.Spec.Aes
import Mathlib.Tactic.FinCases

/-! `src/Encryptions/AES.cpp` computes the function of FIPS 197. -/
namespace OpenPGP
open Std.Aes

theorem aesSub_std : ∀ x, aesSub x = sbox x := by decide +kernel
theorem aesGF2_std : ∀ x, aesGF 2 x = mul 2 x := by decide +kernel
theorem aesGF3_std : ∀ x, aesGF 3 x = mul 3 x := by decide +kernel

/-- The octets of a word, first one first. -/
def wordOctets (w : BitVec 32) : Word := fun r => octetOf w (3 - r)

/-- The state in four words. -/
def quadState (q : Quad) : State := fun r c => wordOctets (match c with | 0 => q.a | 1 => q.b | 2 => q.c | 3 => q.d) r

theorem octetOf_xor (a b : BitVec 32) (k : Nat) : octetOf (a ^^^ b) k = octetOf a k ^^^ octetOf b k := by
  apply BitVec.eq_of_getLsbD_eq
  intro i hi
  simp [octetOf, hi]

theorem octetOf_getLsbD (x : BitVec 32) (k i : Nat) (hi : i < 8) : (octetOf x k).getLsbD i = x.getLsbD (8 * k + i) := by
  simp [octetOf, hi]

theorem octetOf_rol (x : BitVec 32) (m k : Nat) (hm : 0 < m) (hm4 : m < 4) (hk : k < 4) :
    octetOf (rol x (8 * m) 32) k = octetOf x ((k + (4 - m)) % 4) := by
  rw [rol_eq (by norm_num) _ _ (by omega) (by omega)]
  apply BitVec.eq_of_getLsbD_eq
  intro i hi
  rw [octetOf_getLsbD _ _ _ hi, octetOf_getLsbD _ _ _ hi, BitVec.getLsbD_rotateLeft]
  by_cases h : 8 * k + i < 8 * m % 32
  · simp only [h, decide_true, cond_true]
    have : (k + (4 - m)) % 4 = k + (4 - m) := Nat.mod_eq_of_lt (by omega)
    rw [this]; congr 1; omega
  · simp only [h, decide_false, cond_false]
    have : (k + (4 - m)) % 4 = k - m := by omega
    rw [this]
    have h1 : 8 * k + i < 32 := by omega
    simp only [h1, decide_true, Bool.true_and]
    congr 1; omega

theorem octetOf_pack (a b c d : BitVec 8) : octetOf (packWord a b c d) 3 = a ∧ octetOf (packWord a b c d) 2 = b ∧
    octetOf (packWord a b c d) 1 = c ∧ octetOf (packWord a b c d) 0 = d :=
  ⟨octet3_pack .., octet2_pack .., octet1_pack .., octet0_pack ..⟩

theorem wordOctets_pack (a b c d : BitVec 8) (r : Fin 4) :
    wordOctets (packWord a b c d) r = (match r with | 0 => a | 1 => b | 2 => c | 3 => d) := by
  fin_cases r
  · exact octet3_pack ..
  · exact octet2_pack ..
  · exact octet1_pack ..
  · exact octet0_pack ..

theorem quadState_xor (q k : Quad) : quadState (q.xor k) = fun r c => quadState q r c ^^^ quadState k r c := by
  funext r c
  fin_cases c <;> exact octetOf_xor _ _ _

theorem wordOctets_sub (w : BitVec 32) (r : Fin 4) : wordOctets (aesSubWord w) r = sbox (wordOctets w r) := by
  unfold aesSubWord
  rw [wordOctets_pack]
  fin_cases r <;> exact aesSub_std _

theorem quadState_sub (q : Quad) : quadState (q.map aesSubWord) = subBytes (quadState q) := by
  funext r c
  fin_cases c <;> exact wordOctets_sub _ _

theorem wordOctets_mix (w : BitVec 32) (r : Fin 4) : wordOctets (aesMixWord w) r =
    mul 2 (wordOctets w r) ^^^ mul 3 (wordOctets w (r + 1)) ^^^ wordOctets w (r + 2) ^^^ wordOctets w (r + 3) := by
  unfold aesMixWord
  simp only
  rw [wordOctets_pack]
  fin_cases r <;> simp only [aesGF2_std, aesGF3_std] <;> rfl

theorem quadState_mix (q : Quad) : quadState (aesMixColumns q) = mixColumns (quadState q) := by
  funext r c
  fin_cases c <;> exact wordOctets_mix _ _

theorem quadState_transpose (q : Quad) (r c : Fin 4) : quadState (aesTranspose q) r c = quadState q c r := by
  unfold aesTranspose
  fin_cases c <;> simp only [quadState, wordOctets_pack] <;> fin_cases r <;> rfl

theorem wordOctets_rol (x : BitVec 32) (m : Nat) (hm : 0 < m) (hm4 : m < 4) (r : Fin 4) :
    wordOctets (rol x (8 * m) 32) r = wordOctets x (r + ⟨m, hm4⟩) := by
  unfold wordOctets
  have hr := r.isLt
  rw [octetOf_rol x m _ hm hm4 (by omega)]
  congr 1
  simp only [Fin.val_add]
  omega

theorem quadState_shift (q : Quad) : quadState (aesShiftRow q) = shiftRows (quadState q) := by
  funext r c
  unfold aesShiftRow
  rw [quadState_transpose]
  have h : ∀ r c : Fin 4, quadState (aesTranspose q) c r = quadState q r c := fun r c => quadState_transpose q c r
  unfold shiftRows
  rw [← h]
  fin_cases r
  · simp only [quadState, rol_zero]
    congr 1
    fin_cases c <;> rfl
  · exact wordOctets_rol _ 1 (by omega) (by omega) _
  · exact wordOctets_rol _ 2 (by omega) (by omega) _
  · exact wordOctets_rol _ 3 (by omega) (by omega) _

/-! ### Key expansion -/

/-- The words computed so far are the standard's. -/
def KeyOk (KEY : Bytes) (n : Nat) (l : List (BitVec 32)) : Prop :=
  ∀ i, i < l.length → wordOctets (wordIx l i) = keyWord KEY n i

theorem KeyOk.snoc {KEY : Bytes} {n : Nat} {l : List (BitVec 32)} (h : KeyOk KEY n l) {w : BitVec 32}
    (hw : wordOctets w = keyWord KEY n l.length) : KeyOk KEY n (l ++ [w]) := by
  intro i hi
  simp only [List.length_append, List.length_singleton] at hi
  by_cases hil : i < l.length
  · have : wordIx (l ++ [w]) i = wordIx l i := by simp [wordIx, List.getD, List.getElem?_append_left hil]
    rw [this]; exact h i hil
  · have : i = l.length := by omega
    subst this
    have : wordIx (l ++ [w]) l.length = w := by simp [wordIx, List.getD]
    rw [this]; exact hw

theorem wordOctets_xor (a b : BitVec 32) (r : Fin 4) : wordOctets (a ^^^ b) r = wordOctets a r ^^^ wordOctets b r := octetOf_xor ..

theorem KeyOk.push {KEY : Bytes} {n : Nat} {l : List (BitVec 32)} (h : KeyOk KEY n l) (hn : 0 < n) (hl : n ≤ l.length)
    (h0 : l.length % n ≠ 0) (h4 : ¬ (6 < n ∧ l.length % n = 4)) : KeyOk KEY n (aesPush n l) := by
  refine h.snoc ?_
  funext r
  rw [wordOctets_xor, h _ (by omega), h _ (by omega)]
  conv_rhs => rw [keyWord]
  rw [dif_neg (by omega), if_neg h0, if_neg h4, BitVec.xor_comm]

theorem KeyOk.pushSub {KEY : Bytes} {n : Nat} {l : List (BitVec 32)} (h : KeyOk KEY n l) (hn : 6 < n) (hl : n ≤ l.length)
    (h4 : l.length % n = 4) :
    KeyOk KEY n (l ++ [aesSubWord (wordIx l (l.length - 1)) ^^^ wordIx l (l.length - n)]) := by
  refine h.snoc ?_
  funext r
  rw [wordOctets_xor, wordOctets_sub, h _ (by omega), h _ (by omega)]
  conv_rhs => rw [keyWord]
  rw [dif_neg (by omega), if_neg (by omega), if_pos ⟨hn, h4⟩, BitVec.xor_comm]

theorem rcon_std : ∀ i : Fin 10, BitVec.ofNat 8 (2 ^ (i : Nat) % 229) = xtimes 1 i := by decide +kernel

theorem wordOctets_rcon (i : Nat) (hi : i < 10) (r : Fin 4) :
    wordOctets (BitVec.ofNat 32 (2 ^ i % 229) <<< 24) r = if r = 0 then xtimes 1 i else 0 := by
  have h := rcon_std ⟨i, hi⟩
  have hlt : 2 ^ i % 229 < 256 := by omega
  have e : BitVec.ofNat 32 (2 ^ i % 229) <<< 24 = packWord (BitVec.ofNat 8 (2 ^ i % 229)) 0 0 0 := by
    apply BitVec.eq_of_toNat_eq
    rw [packWord_toNat]
    simp only [BitVec.toNat_shiftLeft, BitVec.toNat_ofNat, Nat.shiftLeft_eq]
    generalize 2 ^ i % 229 = k at hlt
    have : (0 : BitVec 8).toNat = 0 := rfl
    simp only [this]
    omega
  rw [e, wordOctets_pack, h]
  fin_cases r <;> rfl

theorem KeyOk.first {KEY : Bytes} {n i : Nat} {l : List (BitVec 32)} (h : KeyOk KEY n l) (hn : 0 < n) (hi : 0 < i) (hi10 : i ≤ 10)
    (hl : l.length = n * i) :
    KeyOk KEY n (l ++ [aesSubWord (rol (wordIx l (l.length - 1)) 8 32) ^^^ wordIx l (l.length - n) ^^^
      (BitVec.ofNat 32 (2 ^ (i - 1) % 229) <<< 24)]) := by
  have hln : n ≤ l.length := by rw [hl]; exact Nat.le_mul_of_pos_right n hi
  refine h.snoc ?_
  funext r
  rw [wordOctets_xor, wordOctets_xor, wordOctets_sub, wordOctets_rol _ 1 (by omega) (by omega), h _ (by omega), h _ (by omega),
    wordOctets_rcon _ (by omega)]
  conv_rhs => rw [keyWord]
  have hdiv : l.length / n = i := by rw [hl]; exact Nat.mul_div_cancel_left i hn
  have hmod : l.length % n = 0 := by rw [hl]; exact Nat.mul_mod_right n i
  rw [dif_neg (by omega)]
  simp only [hmod, hdiv, if_true]
  generalize keyWord KEY n (l.length - n) r = x
  rw [show (r + ⟨1, by omega⟩ : Fin 4) = r + 1 from rfl]
  generalize sbox _ = y
  generalize (if r = 0 then _ else _ : BitVec 8) = z
  rw [BitVec.xor_comm y x, BitVec.xor_assoc]

theorem aesExpandStep_ok {KEY : Bytes} {n i : Nat} {l : List (BitVec 32)} (h : KeyOk KEY n l) (hn : n = 4 ∨ n = 6 ∨ n = 8)
    (hi : 0 < i) (hi10 : i ≤ 10) (hl : l.length = n * i) :
    KeyOk KEY n (aesExpandStep n i l) ∧ (aesExpandStep n i l).length = n * (i + 1) := by
  have h1 := h.first (by omega) hi hi10 hl
  have hlen := aesPush_length n
  unfold aesExpandStep
  simp only
  set l1 := l ++ [aesSubWord (rol (wordIx l (l.length - 1)) 8 32) ^^^ wordIx l (l.length - n) ^^^
      (BitVec.ofNat 32 (2 ^ (i - 1) % 229) <<< 24)] with hl1
  have e1 : l1.length = l.length + 1 := by simp [hl1]
  rcases hn with rfl | rfl | rfl
  · simp only [show ¬ (4 = 8) by omega, show ¬ (4 = 6) by omega, if_false]
    have h2 := h1.push (by omega) (by omega) (by omega) (by omega)
    have h3 := h2.push (by omega) (by rw [hlen]; omega) (by rw [hlen]; omega) (by omega)
    have h4 := h3.push (by omega) (by rw [hlen, hlen]; omega) (by rw [hlen, hlen]; omega) (by omega)
    exact ⟨h4, by rw [hlen, hlen, hlen]; omega⟩
  · simp only [show ¬ (6 = 8) by omega, if_true, if_false]
    have h2 := h1.push (by omega) (by omega) (by omega) (by omega)
    have h3 := h2.push (by omega) (by rw [hlen]; omega) (by rw [hlen]; omega) (by omega)
    have h4 := h3.push (by omega) (by rw [hlen, hlen]; omega) (by rw [hlen, hlen]; omega) (by omega)
    have h5 := h4.push (by omega) (by rw [hlen, hlen, hlen]; omega) (by rw [hlen, hlen, hlen]; omega) (by omega)
    have h6 := h5.push (by omega) (by rw [hlen, hlen, hlen, hlen]; omega) (by rw [hlen, hlen, hlen, hlen]; omega) (by omega)
    exact ⟨h6, by rw [hlen, hlen, hlen, hlen, hlen]; omega⟩
  · simp only [show ¬ (8 = 6) by omega, if_true, if_false]
    have h2 := h1.push (by omega) (by omega) (by omega) (by omega)
    have h3 := h2.push (by omega) (by rw [hlen]; omega) (by rw [hlen]; omega) (by rw [hlen]; omega)
    have h4 := h3.push (by omega) (by rw [hlen, hlen]; omega) (by rw [hlen, hlen]; omega) (by rw [hlen, hlen]; omega)
    set l4 := aesPush 8 (aesPush 8 (aesPush 8 l1)) with hl4
    have e4 : l4.length = l.length + 4 := by rw [hl4, hlen, hlen, hlen]; omega
    have h5 := h4.pushSub (by omega) (by omega) (by omega)
    set l5 := l4 ++ [aesSubWord (wordIx l4 (l4.length - 1)) ^^^ wordIx l4 (l4.length - 8)] with hl5
    have e5 : l5.length = l.length + 5 := by simp [hl5, e4]
    have h6 := h5.push (by omega) (by omega) (by omega) (by omega)
    have h7 := h6.push (by omega) (by rw [hlen]; omega) (by rw [hlen]; omega) (by rw [hlen]; omega)
    have h8 := h7.push (by omega) (by rw [hlen, hlen]; omega) (by rw [hlen, hlen]; omega) (by rw [hlen, hlen]; omega)
    exact ⟨h8, by rw [hlen, hlen, hlen]; omega⟩

theorem aesExpand_std {KEY : Bytes} {n b : Nat} (hn : n = 4 ∨ n = 6 ∨ n = 8) (hb : b = (n + 7) * 16) :
    ∀ (fuel i : Nat) (l k : List (BitVec 32)), 0 < i → KeyOk KEY n l → l.length = n * i → aesExpand n b fuel i l = .ok k →
      KeyOk KEY n k ∧ b ≤ 4 * k.length := by
  intro fuel
  induction fuel with
  | zero => intro i l k _ _ _ h; simp [aesExpand] at h
  | succ f ih =>
    intro i l k hi hl hlen h
    unfold aesExpand at h
    split_ifs at h with hlt
    · have hi10 : i ≤ 10 := by
        rcases hn with rfl | rfl | rfl <;> omega
      obtain ⟨h1, h2⟩ := aesExpandStep_ok hl hn hi hi10 hlen
      exact ih (i + 1) _ k (by omega) h1 h2 h
    · obtain rfl := Out.ok.inj h
      exact ⟨hl, by omega⟩

/-- The initial words. -/
theorem wordAt_octets (d : Bytes) (i : Nat) (h : 4 * i + 4 ≤ d.length) (r : Fin 4) :
    wordOctets (wordAt 32 d (4 * i) 4) r = octet d (4 * i + r) := by
  have hb := be4_wordAt d (4 * i) h
  apply BitVec.eq_of_toNat_eq
  unfold wordOctets octet
  rw [octetOf_toNat]
  have hr := r.isLt
  have hget : d.getD (4 * i + r) 0 = (be 4 (wordAt 32 d (4 * i) 4).toNat).getD r 0 := by
    rw [hb]
    simp [List.getD, hr]
  rw [hget]
  generalize (wordAt 32 d (4 * i) 4).toNat = n
  fin_cases r <;> simp [be] <;> omega

theorem be4_octets (w : BitVec 32) : be 4 w.toNat = (List.finRange 4).map fun r => (⟨wordOctets w r⟩ : UInt8) := by
  have h : ∀ (v : UInt8) (x : BitVec 8), v.toNat = x.toNat → v = ⟨x⟩ := fun v x hv => UInt8.toNat.inj hv
  have e : (List.finRange 4).map (fun r => (⟨wordOctets w r⟩ : UInt8)) =
      [⟨wordOctets w 0⟩, ⟨wordOctets w 1⟩, ⟨wordOctets w 2⟩, ⟨wordOctets w 3⟩] := rfl
  rw [e]
  simp only [be, List.nil_append, List.cons_append]
  congr 1
  · exact h _ _ (by unfold wordOctets; rw [octetOf_toNat]; simp; omega)
  congr 1
  · exact h _ _ (by unfold wordOctets; rw [octetOf_toNat]; simp; omega)
  congr 1
  · exact h _ _ (by unfold wordOctets; rw [octetOf_toNat]; simp)

theorem quadOut_std (q : Quad) : quadOut q = .ok (store (quadState q)) := by
  rw [quadOut_ok, be4_octets, be4_octets, be4_octets, be4_octets]
  rfl

theorem quadIn_std (b : Bytes) (h : b.length = 16) : quadState (quadIn b) = load b := by
  funext r c
  unfold load
  fin_cases c
  · exact (wordAt_octets b 0 (by omega) r).trans (by congr 1; simp)
  · exact (wordAt_octets b 1 (by omega) r).trans (by congr 1; simp; omega)
  · exact (wordAt_octets b 2 (by omega) r).trans (by congr 1; simp; omega)
  · exact (wordAt_octets b 3 (by omega) r).trans (by congr 1; simp; omega)

/-- AES.cpp computes FIPS 197's function. -/
theorem aes_std (KEY : Bytes) (h : KEY.length = 16 ∨ KEY.length = 24 ∨ KEY.length = 32) :
    ∃ o, aes.make KEY = .ok o ∧ ∀ b : Bytes, b.length = 16 → (aes.encrypt o b).2 = .ok (Std.Aes.encrypt KEY b) := by
  simp only [SymCipher.make, aes, aesSetkey]
  have h256 : KEY.length % 256 = KEY.length := by omega
  have hn : ¬ (KEY.length ≠ 16 ∧ KEY.length ≠ 24 ∧ KEY.length ≠ 32) := by omega
  rw [h256, if_neg (by simp), if_neg hn]
  set n := KEY.length / 4 with hndef
  have hn4 : n = 4 ∨ n = 6 ∨ n = 8 := by omega
  have hkl : 4 * n = KEY.length := by omega
  obtain ⟨k', hk, hlen⟩ := aesExpand_ok n ((n + 6 + 1) * 16) 16 1
    ((List.range (n + 6 - 6)).map fun x => wordAt 32 KEY (4 * x) 4) (by omega) (by omega)
  have hstart : KeyOk KEY n ((List.range (n + 6 - 6)).map fun x => wordAt 32 KEY (4 * x) 4) := by
    intro i hi
    simp only [List.length_map, List.length_range] at hi
    have : wordIx ((List.range (n + 6 - 6)).map fun x => wordAt 32 KEY (4 * x) 4) i = wordAt 32 KEY (4 * i) 4 := by
      simp only [wordIx, List.getD, List.getElem?_map, List.getElem?_range hi, Option.map_some, Option.getD_some]
    rw [this]
    funext r
    rw [wordAt_octets KEY i (by omega), keyWord, dif_pos (by omega)]
  obtain ⟨hok, -⟩ := aesExpand_std (KEY := KEY) hn4 rfl 16 1 _ k' (by omega) hstart (by simp) hk
  rw [hk]
  refine ⟨_, rfl, fun b hb => ?_⟩
  simp only [aesEncrypt, Bool.not_true, Bool.false_eq_true, if_false, hb, ne_eq, not_true_eq_false]
  rw [quadOut_std]
  congr 1
  unfold Std.Aes.encrypt
  congr 1
  set keys := ([] : List Quad) ++ (List.range ((n + 6 + 1) * 16 / 16)).map (fun j =>
    (⟨wordIx k' (4 * j), wordIx k' (4 * j + 1), wordIx k' (4 * j + 2), wordIx k' (4 * j + 3)⟩ : Quad)) with hkeys
  have hkey : ∀ (s : State) (q : Quad) (j : Nat), j ≤ n + 6 → quadState q = s →
      quadState (q.xor (quadIx keys j)) = addRoundKey KEY n s j := by
    intro s q j hj hq
    subst hq
    rw [quadState_xor]
    funext r c
    unfold addRoundKey
    congr 1
    have hjr : j < (n + 6 + 1) * 16 / 16 := by omega
    have : quadIx keys j = ⟨wordIx k' (4 * j), wordIx k' (4 * j + 1), wordIx k' (4 * j + 2), wordIx k' (4 * j + 3)⟩ := by
      simp only [quadIx, hkeys, List.nil_append, List.getD, List.getElem?_map, List.getElem?_range hjr, Option.map_some,
        Option.getD_some]
    rw [this]
    fin_cases c
    · exact congrFun (hok (4 * j) (by omega)) r
    · exact congrFun (hok (4 * j + 1) (by omega)) r
    · exact congrFun (hok (4 * j + 2) (by omega)) r
    · exact congrFun (hok (4 * j + 3) (by omega)) r
  have hfold : ∀ (L : List Nat) (q : Quad) (s : State), (∀ j ∈ L, j ≤ n + 6) → quadState q = s →
      quadState (L.foldl (aesEncRound keys) q) =
        L.foldl (fun s k => addRoundKey KEY n (mixColumns (shiftRows (subBytes s))) k) s := by
    intro L
    induction L with
    | nil => intro q s _ h; exact h
    | cons j L ih =>
      intro q s hL hq
      simp only [List.foldl_cons]
      refine ih _ _ (fun i hi => hL i (List.mem_cons_of_mem _ hi)) ?_
      unfold aesEncRound
      refine hkey _ _ j (hL j List.mem_cons_self) ?_
      rw [quadState_mix, quadState_shift, quadState_sub, hq]
  unfold aesEncBlock rounds
  simp only
  refine hkey _ _ _ (by omega) ?_
  rw [quadState_shift, quadState_sub]
  congr 2
  rw [show n + 6 - 1 = n + 5 by omega]
  refine hfold _ _ _ (fun j hj => ?_) (hkey _ _ 0 (by omega) (quadIn_std b hb))
  have := (List.mem_range'_1.mp hj)
  omega

end OpenPGP
