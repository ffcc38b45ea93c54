import Verif.Lemmas.CipherWords
import Verif.Spec.BlockCipher

/-! The steps of `AES::decrypt` undo those of `AES::encrypt`. -/
namespace OpenPGP

theorem aesInv_sub : ∀ x, aesInv (aesSub x) = x := by decide +kernel
theorem aesSub_inv : ∀ x, aesSub (aesInv x) = x := by decide +kernel

theorem aesInvSubWord_sub (w : BitVec 32) : aesInvSubWord (aesSubWord w) = w := by
  simp only [aesInvSubWord, aesSubWord, octet3_pack, octet2_pack, octet1_pack, octet0_pack, aesInv_sub, pack_octets]
theorem aesSubWord_inv (w : BitVec 32) : aesSubWord (aesInvSubWord w) = w := by
  simp only [aesInvSubWord, aesSubWord, octet3_pack, octet2_pack, octet1_pack, octet0_pack, aesSub_inv, pack_octets]

theorem aesTranspose_twice (q : Quad) : aesTranspose (aesTranspose q) = q := by
  simp only [aesTranspose, octet3_pack, octet2_pack, octet1_pack, octet0_pack, pack_octets]

theorem aesTranspose_eta (q : Quad) :
    aesTranspose ⟨(aesTranspose q).a, (aesTranspose q).b, (aesTranspose q).c, (aesTranspose q).d⟩ = q :=
  aesTranspose_twice q

theorem aesInvShiftRow_shift (q : Quad) : aesInvShiftRow (aesShiftRow q) = q := by
  simp only [aesInvShiftRow, aesShiftRow, aesTranspose_twice, rol_zero, ror_zero,
    ror_rol (w := 32) (by norm_num) _ 8 (by norm_num) (by norm_num),
    ror_rol (w := 32) (by norm_num) _ 16 (by norm_num) (by norm_num),
    ror_rol (w := 32) (by norm_num) _ 24 (by norm_num) (by norm_num), aesTranspose_eta]
theorem aesShiftRow_inv (q : Quad) : aesShiftRow (aesInvShiftRow q) = q := by
  simp only [aesInvShiftRow, aesShiftRow, aesTranspose_twice, rol_zero, ror_zero,
    rol_ror (w := 32) (by norm_num) _ 8 (by norm_num) (by norm_num),
    rol_ror (w := 32) (by norm_num) _ 16 (by norm_num) (by norm_num),
    rol_ror (w := 32) (by norm_num) _ 24 (by norm_num) (by norm_num), aesTranspose_eta]

/-- The xor of the multiples of `c 0, …, c 7` selected by the bits of `x`. -/
def linComb (c : Nat → BitVec 8) (x : BitVec 8) : BitVec 8 :=
  (List.range 8).foldl (fun acc i => acc ^^^ (if x.getLsbD i then c i else 0)) 0

theorem linComb_xor (c : Nat → BitVec 8) (x y : BitVec 8) : linComb c (x ^^^ y) = linComb c x ^^^ linComb c y := by
  have gen : ∀ (L : List Nat) (a b : BitVec 8),
      L.foldl (fun acc i => acc ^^^ (if (x ^^^ y).getLsbD i then c i else 0)) (a ^^^ b) =
      L.foldl (fun acc i => acc ^^^ (if x.getLsbD i then c i else 0)) a ^^^
      L.foldl (fun acc i => acc ^^^ (if y.getLsbD i then c i else 0)) b := by
    intro L
    induction L with
    | nil => intro a b; rfl
    | cons i L ih =>
      intro a b
      simp only [List.foldl_cons]
      rw [← ih]
      congr 1
      rw [BitVec.getLsbD_xor]
      have e : (if (x.getLsbD i ^^ y.getLsbD i) = true then c i else 0) =
          (if x.getLsbD i = true then c i else 0) ^^^ (if y.getLsbD i = true then c i else 0) := by
        cases x.getLsbD i <;> cases y.getLsbD i <;> simp
      rw [e]
      ac_rfl
  have := gen (List.range 8) 0 0
  simpa [linComb] using this

theorem aesGF_lin (k : BitVec 8) (h : ∀ x, aesGF k x = linComb (fun i => aesGF k ((1#8) <<< i)) x) (x y : BitVec 8) :
    aesGF k (x ^^^ y) = aesGF k x ^^^ aesGF k y := by
  rw [h, h x, h y, linComb_xor]

theorem aesGF2 (x y : BitVec 8) : aesGF 2 (x ^^^ y) = aesGF 2 x ^^^ aesGF 2 y := aesGF_lin 2 (by decide +kernel) x y
theorem aesGF3 (x y : BitVec 8) : aesGF 3 (x ^^^ y) = aesGF 3 x ^^^ aesGF 3 y := aesGF_lin 3 (by decide +kernel) x y
theorem aesGF9 (x y : BitVec 8) : aesGF 9 (x ^^^ y) = aesGF 9 x ^^^ aesGF 9 y := aesGF_lin 9 (by decide +kernel) x y
theorem aesGF11 (x y : BitVec 8) : aesGF 11 (x ^^^ y) = aesGF 11 x ^^^ aesGF 11 y := aesGF_lin 11 (by decide +kernel) x y
theorem aesGF13 (x y : BitVec 8) : aesGF 13 (x ^^^ y) = aesGF 13 x ^^^ aesGF 13 y := aesGF_lin 13 (by decide +kernel) x y
theorem aesGF14 (x y : BitVec 8) : aesGF 14 (x ^^^ y) = aesGF 14 x ^^^ aesGF 14 y := aesGF_lin 14 (by decide +kernel) x y

theorem aesMix_row (a b c d : BitVec 8) :
    aesGF 14 (aesGF 2 a ^^^ aesGF 3 b ^^^ c ^^^ d) ^^^ aesGF 9 (aesGF 2 d ^^^ aesGF 3 a ^^^ b ^^^ c) ^^^
    aesGF 13 (aesGF 2 c ^^^ aesGF 3 d ^^^ a ^^^ b) ^^^ aesGF 11 (aesGF 2 b ^^^ aesGF 3 c ^^^ d ^^^ a) = a := by
  have ha : ∀ x, aesGF 14 (aesGF 2 x) ^^^ aesGF 9 (aesGF 3 x) ^^^ aesGF 13 x ^^^ aesGF 11 x = x := by decide +kernel
  have hb : ∀ x, aesGF 14 (aesGF 3 x) ^^^ aesGF 9 x ^^^ aesGF 13 x ^^^ aesGF 11 (aesGF 2 x) = 0 := by decide +kernel
  have hc : ∀ x, aesGF 14 x ^^^ aesGF 9 x ^^^ aesGF 13 (aesGF 2 x) ^^^ aesGF 11 (aesGF 3 x) = 0 := by decide +kernel
  have hd : ∀ x, aesGF 14 x ^^^ aesGF 9 (aesGF 2 x) ^^^ aesGF 13 (aesGF 3 x) ^^^ aesGF 11 x = 0 := by decide +kernel
  simp only [aesGF14, aesGF9, aesGF13, aesGF11]
  calc _ = (aesGF 14 (aesGF 2 a) ^^^ aesGF 9 (aesGF 3 a) ^^^ aesGF 13 a ^^^ aesGF 11 a) ^^^
      (aesGF 14 (aesGF 3 b) ^^^ aesGF 9 b ^^^ aesGF 13 b ^^^ aesGF 11 (aesGF 2 b)) ^^^
      (aesGF 14 c ^^^ aesGF 9 c ^^^ aesGF 13 (aesGF 2 c) ^^^ aesGF 11 (aesGF 3 c)) ^^^
      (aesGF 14 d ^^^ aesGF 9 (aesGF 2 d) ^^^ aesGF 13 (aesGF 3 d) ^^^ aesGF 11 d) := by ac_rfl
    _ = a := by rw [ha, hb, hc, hd]; simp

theorem aesInvMix_row (a b c d : BitVec 8) :
    aesGF 2 (aesGF 14 a ^^^ aesGF 9 d ^^^ aesGF 13 c ^^^ aesGF 11 b) ^^^
    aesGF 3 (aesGF 14 b ^^^ aesGF 9 a ^^^ aesGF 13 d ^^^ aesGF 11 c) ^^^
    (aesGF 14 c ^^^ aesGF 9 b ^^^ aesGF 13 a ^^^ aesGF 11 d) ^^^
    (aesGF 14 d ^^^ aesGF 9 c ^^^ aesGF 13 b ^^^ aesGF 11 a) = a := by
  have ha : ∀ x, aesGF 2 (aesGF 14 x) ^^^ aesGF 3 (aesGF 9 x) ^^^ aesGF 13 x ^^^ aesGF 11 x = x := by decide +kernel
  have hb : ∀ x, aesGF 2 (aesGF 11 x) ^^^ aesGF 3 (aesGF 14 x) ^^^ aesGF 9 x ^^^ aesGF 13 x = 0 := by decide +kernel
  have hc : ∀ x, aesGF 2 (aesGF 13 x) ^^^ aesGF 3 (aesGF 11 x) ^^^ aesGF 14 x ^^^ aesGF 9 x = 0 := by decide +kernel
  have hd : ∀ x, aesGF 2 (aesGF 9 x) ^^^ aesGF 3 (aesGF 13 x) ^^^ aesGF 11 x ^^^ aesGF 14 x = 0 := by decide +kernel
  simp only [aesGF2, aesGF3]
  calc _ = (aesGF 2 (aesGF 14 a) ^^^ aesGF 3 (aesGF 9 a) ^^^ aesGF 13 a ^^^ aesGF 11 a) ^^^
      (aesGF 2 (aesGF 11 b) ^^^ aesGF 3 (aesGF 14 b) ^^^ aesGF 9 b ^^^ aesGF 13 b) ^^^
      (aesGF 2 (aesGF 13 c) ^^^ aesGF 3 (aesGF 11 c) ^^^ aesGF 14 c ^^^ aesGF 9 c) ^^^
      (aesGF 2 (aesGF 9 d) ^^^ aesGF 3 (aesGF 13 d) ^^^ aesGF 11 d ^^^ aesGF 14 d) := by ac_rfl
    _ = a := by rw [ha, hb, hc, hd]; simp

theorem aesInvMixWord_mix (w : BitVec 32) : aesInvMixWord (aesMixWord w) = w := by
  simp only [aesInvMixWord, aesMixWord, octet3_pack, octet2_pack, octet1_pack, octet0_pack, aesMix_row, pack_octets]
theorem aesMixWord_inv (w : BitVec 32) : aesMixWord (aesInvMixWord w) = w := by
  simp only [aesInvMixWord, aesMixWord, octet3_pack, octet2_pack, octet1_pack, octet0_pack, aesInvMix_row, pack_octets]

theorem Quad.map_map {f g : BitVec 32 → BitVec 32} (h : ∀ w, g (f w) = w) (q : Quad) : (q.map f).map g = q := by
  simp [Quad.map, h]

/-- The two middle steps of a round. -/
def aesSR (q : Quad) : Quad := aesShiftRow (q.map aesSubWord)

/-- Their inverses in `decrypt`. -/
def aesISR (q : Quad) : Quad := (aesInvShiftRow q).map aesInvSubWord

theorem aesISR_SR (q : Quad) : aesISR (aesSR q) = q := by
  rw [aesISR, aesSR, aesInvShiftRow_shift, Quad.map_map aesInvSubWord_sub]
theorem aesSR_ISR (q : Quad) : aesSR (aesISR q) = q := by
  rw [aesISR, aesSR, Quad.map_map aesSubWord_inv, aesShiftRow_inv]
theorem aesIMC_MC (q : Quad) : aesInvMixColumns (aesMixColumns q) = q := Quad.map_map aesInvMixWord_mix q
theorem aesMC_IMC (q : Quad) : aesMixColumns (aesInvMixColumns q) = q := Quad.map_map aesMixWord_inv q

theorem range'_rev (n : Nat) : (List.range' 1 n).reverse = (List.range' 1 n).map (fun r => n + 1 - r) := by
  apply List.ext_getElem
  · simp
  · intro i h1 h2
    simp only [List.length_reverse, List.length_range'] at h1
    simp only [List.getElem_reverse, List.getElem_range', List.getElem_map, List.length_range']
    omega

theorem quadIx_reverse (keys : List Quad) (n r : Nat) (hk : keys.length = n + 1) (hr : r ≤ n) :
    quadIx keys.reverse r = quadIx keys (n - r) := by
  unfold quadIx
  rw [List.getD_eq_getElem?_getD, List.getD_eq_getElem?_getD, List.getElem?_reverse (by omega)]
  congr 2
  omega

/-- Rewriting the rounds of `decrypt` to the unreversed keys. -/
theorem aesDec_fold (keys : List Quad) (n : Nat) (hk : keys.length = n + 1) (hn : 1 ≤ n) (q : Quad) :
    (List.range' 1 (n - 1)).foldl (aesDecRound keys.reverse) q =
    (List.range' 1 (n - 1)).reverse.foldl (fun z r => aesInvMixColumns ((aesISR z).xor (quadIx keys r))) q := by
  rw [range'_rev, List.foldl_map]
  apply List.foldl_ext
  intro z r hr
  rw [List.mem_range'_1] at hr
  rw [aesDecRound, quadIx_reverse keys n r hk (by omega), aesISR]
  congr 3
  omega

theorem aesDec_enc (keys : List Quad) (n : Nat) (hk : keys.length = n + 1) (hn : 1 ≤ n) (q : Quad) :
    aesDecBlock keys.reverse n (aesEncBlock keys n q) = q := by
  unfold aesDecBlock aesEncBlock
  simp only []
  rw [quadIx_reverse keys n 0 hk (by omega), Nat.sub_zero, Quad.xor_xor, aesDec_fold keys n hk hn,
    quadIx_reverse keys n n hk (by omega), Nat.sub_self]
  have hom := foldl_hom' aesSR (aesEncRound keys) (fun z r => aesSR ((aesMixColumns z).xor (quadIx keys r)))
    (fun x r => rfl) (List.range' 1 (n - 1)) (q.xor (quadIx keys 0))
  have e : ∀ z, aesShiftRow (Quad.map aesSubWord z) = aesSR z := fun _ => rfl
  have e' : ∀ z, Quad.map aesInvSubWord (aesInvShiftRow z) = aesISR z := fun _ => rfl
  rw [e, hom, e', foldl_undo, aesISR_SR, Quad.xor_xor]
  intro x r
  simp only [aesISR_SR, Quad.xor_xor, aesIMC_MC]

theorem aesEnc_dec (keys : List Quad) (n : Nat) (hk : keys.length = n + 1) (hn : 1 ≤ n) (q : Quad) :
    aesEncBlock keys n (aesDecBlock keys.reverse n q) = q := by
  unfold aesDecBlock aesEncBlock
  simp only []
  rw [quadIx_reverse keys n 0 hk (by omega), Nat.sub_zero, aesDec_fold keys n hk hn,
    quadIx_reverse keys n n hk (by omega), Nat.sub_self]
  have e : ∀ z, aesShiftRow (Quad.map aesSubWord z) = aesSR z := fun _ => rfl
  have e' : ∀ z, Quad.map aesInvSubWord (aesInvShiftRow z) = aesISR z := fun _ => rfl
  rw [e, e', Quad.xor_xor]
  have hom := foldl_hom' aesSR (aesEncRound keys) (fun z r => aesSR ((aesMixColumns z).xor (quadIx keys r)))
    (fun x r => rfl) (List.range' 1 (n - 1))
  rw [hom, aesSR_ISR]
  have := foldl_undo (fun z r => aesInvMixColumns ((aesISR z).xor (quadIx keys r)))
    (fun z r => aesSR ((aesMixColumns z).xor (quadIx keys r)))
    (by intro x r; simp only [aesMC_IMC, Quad.xor_xor, aesSR_ISR]) (List.range' 1 (n - 1)).reverse
    (q.xor (quadIx keys n))
  rw [List.reverse_reverse] at this
  rw [this, Quad.xor_xor]

/-! ## The key schedule ends -/

theorem aesPush_length (n : Nat) (k : List (BitVec 32)) : (aesPush n k).length = k.length + 1 := by simp [aesPush]

theorem aesExpandStep_length (n i : Nat) (k : List (BitVec 32)) : k.length + 4 ≤ (aesExpandStep n i k).length := by
  unfold aesExpandStep
  simp only []
  split
  · simp only [aesPush_length]
    split <;> simp [aesPush_length]
  · split
    · simp only [aesPush_length, List.length_append, List.length_cons, List.length_nil]; omega
    · simp [aesPush_length]

theorem aesExpand_ok (n b : Nat) : ∀ (fuel i : Nat) (k : List (BitVec 32)), b + 16 ≤ 4 * k.length + 16 * fuel →
    0 < fuel → ∃ k', aesExpand n b fuel i k = .ok k' ∧ b ≤ 4 * k'.length
  | 0, _, _, _, h => absurd h (by omega)
  | fuel + 1, i, k, h, _ => by
    unfold aesExpand
    split
    · have hl := aesExpandStep_length n i k
      rcases Nat.eq_zero_or_pos fuel with rfl | hf
      · omega
      · exact aesExpand_ok n b fuel (i + 1) _ (by omega) hf
    · exact ⟨k, rfl, by omega⟩

/-- `setkey` on a new object succeeds exactly for the key sizes 16, 24 and 32 modulo 256. -/
theorem aesSetkey_ok (KEY : Bytes) (h : KEY.length % 256 = 16 ∨ KEY.length % 256 = 24 ∨ KEY.length % 256 = 32) :
    ∃ o, aes.make KEY = .ok o ∧ o.keyset = true ∧ o.keys.length = o.rounds + 1 ∧ 1 ≤ o.rounds := by
  simp only [SymCipher.make, aes, aesSetkey]
  have hn : ¬ (KEY.length % 256 ≠ 16 ∧ KEY.length % 256 ≠ 24 ∧ KEY.length % 256 ≠ 32) := by omega
  rw [if_neg (by simp), if_neg hn]
  obtain ⟨k', hk, _⟩ := aesExpand_ok (KEY.length % 256 / 4) ((KEY.length % 256 / 4 + 6 + 1) * 16) 16 1
    ((List.range (KEY.length % 256 / 4 + 6 - 6)).map fun x => wordAt 32 KEY (4 * x) 4) (by omega) (by omega)
  rw [hk]
  refine ⟨_, rfl, rfl, ?_, by simp⟩
  simp

theorem quad_block (f g : Quad → Quad) (h : ∀ q, g (f q) = q) (b : Bytes) (hb : b.length = 16) :
    ∃ e, quadOut (f (quadIn b)) = .ok e ∧ e.length = b.length ∧ quadOut (g (quadIn e)) = .ok b := by
  refine ⟨_, quadOut_ok _, by simp [hb], ?_⟩
  rw [quadIn_out, h, quadOut_ok, out_quadIn b hb]

theorem aes_inverts (KEY : Bytes) (h : KEY.length % 256 = 16 ∨ KEY.length % 256 = 24 ∨ KEY.length % 256 = 32) :
    aes.InvertsWith KEY := by
  obtain ⟨o, ho, hs, hk, hr⟩ := aesSetkey_ok KEY h
  refine ⟨o, ho, ?_, ?_⟩
  · intro b hb
    have hb : b.length = 16 := by simp only [aes] at hb; omega
    obtain ⟨e, he, hl, hd⟩ := quad_block (aesEncBlock o.keys o.rounds) (aesDecBlock o.keys.reverse o.rounds)
      (aesDec_enc o.keys o.rounds hk hr) b hb
    obtain ⟨e', he', hl', hd'⟩ := quad_block (aesDecBlock o.keys.reverse o.rounds) (aesEncBlock o.keys o.rounds)
      (aesEnc_dec o.keys o.rounds hk hr) b hb
    refine ⟨⟨e, ?_, hl, ?_, ?_⟩, ⟨e', ?_, hl', ?_⟩⟩
    · simp [aes, aesEncrypt, hs, hb, he]
    · simp [aes, aesEncrypt, aesDecrypt, hs, hb, hl, hd]
    · simp [aes, aesDecrypt, hs, hb, hl, hd]
    · simp [aes, aesDecrypt, hs, hb, he']
    · simp [aes, aesEncrypt, hs, hb, hl', hd']
  · intro b hb
    have hb : b.length ≠ 16 := by simp only [aes] at hb; omega
    simp [aes, aesEncrypt, aesDecrypt, hs, hb]

/-- An object whose calls leave it unchanged has no memory. -/
theorem noMemory_of_fixed {S : Type} (c : SymCipher S) (o : S) (h : ∀ k, (c.call o k).1 = o) (calls : List CipherCall) :
    c.run calls o = calls.map fun k => (c.call o k).2 := by
  induction calls with
  | nil => rfl
  | cons k ks ih => simp [SymCipher.run, h, ih]

theorem aes_noMemory (KEY : Bytes) (h : KEY.length % 256 = 16 ∨ KEY.length % 256 = 24 ∨ KEY.length % 256 = 32) :
    aes.NoMemoryWith KEY := by
  obtain ⟨o, ho, hs, hk, hr⟩ := aesSetkey_ok KEY h
  refine ⟨o, ho, noMemory_of_fixed aes o ?_⟩
  intro k
  cases k with
  | encrypt b => simp only [SymCipher.call, aes, aesEncrypt]; split <;> [rfl; (split <;> rfl)]
  | decrypt b =>
    simp only [SymCipher.call, aes, aesDecrypt, List.reverse_reverse]; split <;> [rfl; (split <;> rfl)]

end OpenPGP
