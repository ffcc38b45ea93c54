import Verif.Lemmas.PgpCfb
import Verif.Props.C17

/-!
# C16: OpenPGP CFB decryption inverts encryption
-/
namespace OpenPGP

/-- The last two octets of the first block, which the prefix repeats. -/
def lastTwo (bs : Nat) (p : Bytes) : Bytes := (p.drop (bs - 2)).take 2

theorem lastTwo_length {bs : Nat} {p : Bytes} (h2 : 2 ≤ bs) (h : bs ≤ p.length) : (lastTwo bs p).length = 2 := by
  rw [lastTwo, List.length_take, List.length_drop]; omega

theorem cfbEnc_append_block {c : Cipher} (hc : c.Ok) (iv a b : Bytes) (ha : a.length = c.bs) :
    cfbEnc c iv (a ++ b) = xorStrings (c.enc iv) a ++ cfbEnc c (xorStrings (c.enc iv) a) b := by
  rw [cfbEnc_step hc, List.take_left' ha, List.drop_left' ha]

theorem pgpEnc18 (c : Cipher) (hc : c.Ok) (data p : Bytes) (hp : c.bs + 2 ≤ p.length) :
    pgpCfbEncrypt c 18 data p =
      .ok (cfbEnc c (List.replicate c.bs 0) (p.take c.bs ++ (lastTwo c.bs p ++ data))) := by
  have hbs := hc.bs_pos
  have h0 : (List.replicate c.bs (0 : UInt8)).length = c.bs := List.length_replicate
  have hE0 := hc.enc_len _ h0
  set E0 := c.enc (List.replicate c.bs 0) with hE0'
  have htk : (p.take c.bs).length = c.bs := by rw [List.length_take]; omega
  have hC : xorStrings E0 (p.take (c.bs + 2)) = xorStrings E0 (p.take c.bs) := by
    rw [← xorStrings_take_right E0 (p.take (c.bs + 2)) c.bs (by omega), List.take_take]
    congr 2; omega
  have hp2 : substr (p.take (c.bs + 2)) (c.bs - 2) 2 = .ok (lastTwo c.bs p) := by
    rw [substr_take (by rw [List.length_take]; omega), lastTwo]
    congr 1
    rw [List.drop_take, List.take_take]
    congr 1; omega
  have hl2 := lastTwo_length hbs (show c.bs ≤ p.length by omega)
  set C1 := xorStrings E0 (p.take c.bs) with hC1
  have hC1l : C1.length = c.bs := by rw [hC1, xorStrings_length, hE0, htk]; omega
  have hE1 := hc.enc_len _ hC1l
  unfold pgpCfbEncrypt
  rw [if_neg (by omega), encrypt_eq c _ h0, Out.ok_bind]
  simp only [← hE0', hC]
  rw [encrypt_eq c _ hC1l, Out.ok_bind, if_neg (by decide), if_pos trivial, hp2, Out.ok_bind]
  set blk := lastTwo c.bs p ++ data.take (c.bs - 2) with hblk
  have hblkl : blk.length = min c.bs (data.length + 2) := by
    rw [hblk, List.length_append, hl2, List.length_take]; omega
  set C2 := xorStrings (c.enc C1) blk with hC2
  have hC2l : C2.length = min c.bs (data.length + 2) := by rw [hC2, xorStrings_length, hE1, hblkl]; omega
  rw [pgpEncLoop_eq hc data _ _ _ (by rw [List.length_append, hC1l, hC2l]; omega) (by omega)]
  rw [cfbEnc_append_block hc _ _ _ htk, ← hE0', ← hC1, cfbEnc_step hc C1]
  have t1 : (lastTwo c.bs p ++ data).take c.bs = blk := by
    rw [List.take_append, hl2, List.take_of_length_le (by omega)]
  have t2 : (lastTwo c.bs p ++ data).drop c.bs = data.drop (c.bs - 2) := by
    rw [List.drop_append, hl2, List.drop_eq_nil_of_le (by omega), List.nil_append]
  rw [t1, t2, ← hC2]
  rw [show (C1 ++ C2).drop (c.bs - 2 + 2) = C2 by
    rw [show c.bs - 2 + 2 = c.bs by omega, List.drop_left' hC1l]]
  rw [List.append_assoc]

theorem pgpEnc9 (c : Cipher) (hc : c.Ok) (data p : Bytes) (hp : c.bs + 2 ≤ p.length) :
    ∃ C1, C1 = cfbEnc c (List.replicate c.bs 0) (p.take c.bs ++ lastTwo c.bs p) ∧
    pgpCfbEncrypt c 9 data p = .ok (C1 ++ cfbEnc c (C1.drop 2) data) := by
  have hbs := hc.bs_pos
  have h0 : (List.replicate c.bs (0 : UInt8)).length = c.bs := List.length_replicate
  have hE0 := hc.enc_len _ h0
  set E0 := c.enc (List.replicate c.bs 0) with hE0'
  have htk : (p.take c.bs).length = c.bs := by rw [List.length_take]; omega
  have hC : xorStrings E0 (p.take (c.bs + 2)) = xorStrings E0 (p.take c.bs) := by
    rw [← xorStrings_take_right E0 (p.take (c.bs + 2)) c.bs (by omega), List.take_take]
    congr 2; omega
  have hp2 : substr (p.take (c.bs + 2)) (c.bs - 2) 2 = .ok (lastTwo c.bs p) := by
    rw [substr_take (by rw [List.length_take]; omega), lastTwo]
    congr 1
    rw [List.drop_take, List.take_take]
    congr 1; omega
  have hl2 := lastTwo_length hbs (show c.bs ≤ p.length by omega)
  set B1 := xorStrings E0 (p.take c.bs) with hB1
  have hB1l : B1.length = c.bs := by rw [hB1, xorStrings_length, hE0, htk]; omega
  have hE1 := hc.enc_len _ hB1l
  have e2 : xorStrings ((c.enc B1).take 2) (lastTwo c.bs p) = xorStrings (c.enc B1) (lastTwo c.bs p) := by
    conv_lhs => rw [show lastTwo c.bs p = (lastTwo c.bs p).take 2 from (List.take_of_length_le (by omega)).symm]
    rw [← xorStrings_take, List.take_of_length_le]
    rw [xorStrings_length]; omega
  refine ⟨_, rfl, ?_⟩
  have hC1 : cfbEnc c (List.replicate c.bs 0) (p.take c.bs ++ lastTwo c.bs p) = B1 ++ xorStrings (c.enc B1) (lastTwo c.bs p) := by
    rw [cfbEnc_append_block hc _ _ _ htk, ← hE0', ← hB1, cfbEnc_step hc B1, List.take_of_length_le (by omega),
      List.drop_eq_nil_of_le (by omega), cfbEnc_nil, List.append_nil]
  rw [hC1]
  set D := B1 ++ xorStrings (c.enc B1) (lastTwo c.bs p) with hD
  have hDl : D.length = c.bs + 2 := by rw [hD, List.length_append, hB1l, xorStrings_length]; omega
  have hfr : (D.drop 2).length = c.bs := by rw [List.length_drop]; omega
  unfold pgpCfbEncrypt
  rw [if_neg (by omega), encrypt_eq c _ h0, Out.ok_bind]
  simp only [← hE0', hC]
  rw [encrypt_eq c _ hB1l, Out.ok_bind, if_pos trivial, hp2, Out.ok_bind]
  rw [e2, ← hD, substr_take (by omega), Out.ok_bind, List.take_of_length_le (l := D.drop 2) (by omega),
    encrypt_eq c _ hfr, Out.ok_bind]
  have hE2 := hc.enc_len _ hfr
  set blk := xorStrings (c.enc (D.drop 2)) (data.take c.bs) with hblk
  have hblkl : blk.length = min c.bs data.length := by rw [hblk, xorStrings_length, hE2, List.length_take]; omega
  rw [pgpEncLoop_eq hc data _ _ _ (by rw [List.length_append, hDl, hblkl]; omega) (by omega)]
  rw [cfbEnc_step hc (D.drop 2) data, ← hblk, ← List.append_assoc]
  rw [show (D ++ blk).drop (c.bs + 2) = blk by rw [List.drop_left' hDl]]

/-- What decryption computes on any octets. -/
theorem pgpDec_eq (c : Cipher) (hc : c.Ok) (tag : Nat) (data : Bytes) (h : c.bs + 2 ≤ data.length)
    (pre : Bytes) (hpre : pre = xorStrings (c.enc (List.replicate c.bs 0)) (data.take c.bs)) :
    pgpCfbDecrypt c tag data =
      if lastTwo c.bs pre = xorStrings ((c.enc (data.take c.bs)).take 2) ((data.drop c.bs).take 2) then
        .ok (pre ++ (if tag = 9 then lastTwo c.bs pre else []) ++
          if tag = 9 then cfbDec c ((data.drop 2).take c.bs) (data.drop (c.bs + 2))
          else cfbDec c (data.take c.bs) (data.drop c.bs))
      else .throw := by
  have hbs := hc.bs_pos
  have h0 : (List.replicate c.bs (0 : UInt8)).length = c.bs := List.length_replicate
  have hE0 := hc.enc_len _ h0
  have htk : (data.take c.bs).length = c.bs := by rw [List.length_take]; omega
  have hE1 := hc.enc_len _ htk
  have hprel : pre.length = c.bs := by rw [hpre, xorStrings_length]; omega
  unfold pgpCfbDecrypt
  rw [encrypt_eq c _ h0, Out.ok_bind]
  simp only [← hpre]
  rw [encrypt_eq c _ htk, Out.ok_bind, substr_take (by omega), Out.ok_bind, substr_take (by omega), Out.ok_bind]
  have hlt : (pre.drop (c.bs - 2)).take 2 = lastTwo c.bs pre := rfl
  simp only [hlt]
  by_cases hm : lastTwo c.bs pre = xorStrings ((c.enc (data.take c.bs)).take 2) ((data.drop c.bs).take 2)
  · rw [if_neg (not_not.mpr hm), if_pos hm]
    obtain ⟨P', fre', x', h1, h2, h3⟩ := pgpDecLoop_eq hc data (data.length + 1) (if tag = 9 then 2 else 0)
      (c.enc (data.take c.bs)) [] (by split <;> omega) (by omega)
    rw [h1, Out.ok_bind]
    simp only
    rw [substr_take h2, Out.ok_bind, h3, List.nil_append]
    set x := (if tag = 9 then 2 else 0) with hx
    have hx2 : x ≤ 2 := by rw [hx]; split <;> omega
    have hb : ((data.drop x).take c.bs).length = c.bs := by rw [List.length_take, List.length_drop]; omega
    have hbl : (xorStrings (c.enc (data.take c.bs)) ((data.drop x).take c.bs)).length = c.bs := by
      rw [xorStrings_length]; omega
    rw [substr_take (by rw [List.length_append]; omega), Out.ok_bind, List.drop_left' hbl,
      List.take_of_length_le (by rw [List.length_append]; omega)]
    rw [Out.pure_eq]
    congr 2
    by_cases h9 : tag = 9
    · rw [if_pos h9, hx, if_pos h9, Nat.add_comm 2]
    · rw [if_neg h9, hx, if_neg h9]; simp
  · rw [if_pos hm, if_neg hm]

/-- Tag 18 (no resynchronisation): decryption of the encryption returns the prefix (with its repeated octets) and
the data, for every cipher, prefix and data; the ciphertext has the length of both together. -/
theorem C16_roundtrip_18 (c : Cipher) (hc : c.Ok) (data p : Bytes) (hp : c.bs + 2 ≤ p.length) :
    ∃ ct, pgpCfbEncrypt c 18 data p = .ok ct ∧ ct.length = c.bs + 2 + data.length ∧
      pgpCfbDecrypt c 18 ct = .ok (p.take c.bs ++ lastTwo c.bs p ++ data) := by
  have hbs := hc.bs_pos
  have h0 : (List.replicate c.bs (0 : UInt8)).length = c.bs := List.length_replicate
  have hE0 := hc.enc_len _ h0
  have htk : (p.take c.bs).length = c.bs := by rw [List.length_take]; omega
  have hl2 := lastTwo_length hbs (show c.bs ≤ p.length by omega)
  refine ⟨_, pgpEnc18 c hc data p hp, ?_, ?_⟩
  · rw [cfbEnc_length hc _ _ h0]; simp only [List.length_append, htk, hl2]; omega
  · rw [cfbEnc_append_block hc _ _ _ htk]
    set E0 := c.enc (List.replicate c.bs 0) with hE0'
    set B1 := xorStrings E0 (p.take c.bs) with hB1
    have hB1l : B1.length = c.bs := by rw [hB1, xorStrings_length, hE0, htk]; omega
    have hE1 := hc.enc_len _ hB1l
    set R := cfbEnc c B1 (lastTwo c.bs p ++ data) with hR
    have hRl : R.length = 2 + data.length := by rw [hR, cfbEnc_length hc _ _ hB1l, List.length_append, hl2]
    have hpre : p.take c.bs = xorStrings (c.enc (List.replicate c.bs 0)) ((B1 ++ R).take c.bs) := by
      rw [List.take_left' hB1l, ← hE0', hB1, xorStrings_cancel _ _ (by omega)]
    have hlt : lastTwo c.bs (p.take c.bs) = lastTwo c.bs p := by
      rw [lastTwo, lastTwo, List.drop_take, List.take_take]; congr 1; omega
    rw [pgpDec_eq c hc 18 (B1 ++ R) (by rw [List.length_append]; omega) (p.take c.bs) hpre]
    rw [List.take_left' hB1l, List.drop_left' hB1l, if_pos, if_neg (by decide), if_neg (by decide), hR,
      cfbDec_cfbEnc hc _ _ hB1l]
    · simp
    · rw [hlt, hR, cfbEnc_step hc, List.take_append_of_le_length (by
        rw [xorStrings_length, List.length_take, List.length_append]; omega)]
      rw [xorStrings_take, List.take_take, show min 2 c.bs = 2 by omega, List.take_left' hl2,
        xorStrings_cancel _ _ (by rw [List.length_take]; omega)]

/-- Tag 9 (with resynchronisation): the same. -/
theorem C16_roundtrip_9 (c : Cipher) (hc : c.Ok) (data p : Bytes) (hp : c.bs + 2 ≤ p.length) :
    ∃ ct, pgpCfbEncrypt c 9 data p = .ok ct ∧ ct.length = c.bs + 2 + data.length ∧
      pgpCfbDecrypt c 9 ct = .ok (p.take c.bs ++ lastTwo c.bs p ++ data) := by
  have hbs := hc.bs_pos
  have h0 : (List.replicate c.bs (0 : UInt8)).length = c.bs := List.length_replicate
  have hE0 := hc.enc_len _ h0
  have htk : (p.take c.bs).length = c.bs := by rw [List.length_take]; omega
  have hl2 := lastTwo_length hbs (show c.bs ≤ p.length by omega)
  obtain ⟨C1, hC1, henc⟩ := pgpEnc9 c hc data p hp
  have hC1l : C1.length = c.bs + 2 := by
    rw [hC1, cfbEnc_length hc _ _ h0, List.length_append, htk, hl2]
  have hfr : (C1.drop 2).length = c.bs := by rw [List.length_drop]; omega
  refine ⟨_, henc, by rw [List.length_append, hC1l, cfbEnc_length hc _ _ hfr], ?_⟩
  rw [cfbEnc_append_block hc _ _ _ htk] at hC1
  set E0 := c.enc (List.replicate c.bs 0) with hE0'
  set B1 := xorStrings E0 (p.take c.bs) with hB1
  have hB1l : B1.length = c.bs := by rw [hB1, xorStrings_length, hE0, htk]; omega
  have hE1 := hc.enc_len _ hB1l
  set R := cfbEnc c (C1.drop 2) data with hR
  have hRl : R.length = data.length := cfbEnc_length hc _ _ hfr
  have htake : (C1 ++ R).take c.bs = B1 := by
    rw [hC1, List.append_assoc, List.take_left' hB1l]
  have hpre : p.take c.bs = xorStrings (c.enc (List.replicate c.bs 0)) ((C1 ++ R).take c.bs) := by
    rw [htake, ← hE0', hB1, xorStrings_cancel _ _ (by omega)]
  have hlt : lastTwo c.bs (p.take c.bs) = lastTwo c.bs p := by
    rw [lastTwo, lastTwo, List.drop_take, List.take_take]; congr 1; omega
  rw [pgpDec_eq c hc 9 (C1 ++ R) (by rw [List.length_append]; omega) (p.take c.bs) hpre]
  rw [if_pos, if_pos rfl, if_pos rfl, hlt, List.drop_left' hC1l]
  · rw [List.drop_append_of_le_length (by omega), List.take_left' hfr, hR, cfbDec_cfbEnc hc _ _ hfr]
  · rw [htake, hlt, hC1, List.append_assoc, List.drop_left' hB1l, cfbEnc_step hc,
      List.drop_eq_nil_of_le (as := lastTwo c.bs p) (by omega), cfbEnc_nil, List.append_nil,
      List.take_of_length_le (l := lastTwo c.bs p) (by omega),
      List.take_left' (by rw [xorStrings_length]; omega)]
    rw [show xorStrings (c.enc B1) (lastTwo c.bs p) = xorStrings ((c.enc B1).take 2) (lastTwo c.bs p) by
      conv_rhs => rw [show lastTwo c.bs p = (lastTwo c.bs p).take 2 from (List.take_of_length_le (by omega)).symm]
      rw [← xorStrings_take, List.take_of_length_le]
      rw [xorStrings_length]; omega]
    rw [xorStrings_cancel _ _ (by rw [List.length_take]; omega)]

/-- For a prefix as RFC 4880 prescribes it (block size + 2 octets, the last two repeating the two before), decryption
returns exactly prefix and data, in both modes. -/
theorem C16_roundtrip (c : Cipher) (hc : c.Ok) (tag : Nat) (ht : tag = 9 ∨ tag = 18) (data p : Bytes)
    (hp : p.length = c.bs + 2) (hrep : p.drop c.bs = lastTwo c.bs p) :
    ∃ ct, pgpCfbEncrypt c tag data p = .ok ct ∧ ct.length = (p ++ data).length ∧
      pgpCfbDecrypt c tag ct = .ok (p ++ data) := by
  have e : p.take c.bs ++ lastTwo c.bs p = p := by rw [← hrep, List.take_append_drop]
  rcases ht with rfl | rfl
  · obtain ⟨ct, h1, h2, h3⟩ := C16_roundtrip_9 c hc data p (by omega)
    exact ⟨ct, h1, by rw [h2, List.length_append, hp], by rw [h3, e]⟩
  · obtain ⟨ct, h1, h2, h3⟩ := C16_roundtrip_18 c hc data p (by omega)
    exact ⟨ct, h1, by rw [h2, List.length_append, hp], by rw [h3, e]⟩

example : demoCipher.Ok ∧ ([1, 2, 3, 4, 5, 6, 7, 8, 7, 8] : Bytes).length = demoCipher.bs + 2 ∧
    ([1, 2, 3, 4, 5, 6, 7, 8, 7, 8] : Bytes).drop demoCipher.bs = lastTwo demoCipher.bs [1, 2, 3, 4, 5, 6, 7, 8, 7, 8] :=
  ⟨demoCipher_ok, by decide, by decide⟩

/-- On any octets decryption either throws or returns a string of the same length whose octets behind the first
block repeat the last two of the first block; it never has another outcome. -/
theorem C16_check (c : Cipher) (hc : c.Ok) (tag : Nat) (data : Bytes) :
    pgpCfbDecrypt c tag data = .throw ∨
    ∃ out, pgpCfbDecrypt c tag data = .ok out ∧ out.length = data.length ∧ c.bs + 2 ≤ out.length ∧
      (out.drop c.bs).take 2 = lastTwo c.bs out := by
  have hbs := hc.bs_pos
  have h0 : (List.replicate c.bs (0 : UInt8)).length = c.bs := List.length_replicate
  have hE0 := hc.enc_len _ h0
  by_cases h : c.bs + 2 ≤ data.length
  · have htk : (data.take c.bs).length = c.bs := by rw [List.length_take]; omega
    have hE1 := hc.enc_len _ htk
    set pre := xorStrings (c.enc (List.replicate c.bs 0)) (data.take c.bs) with hpre
    have hprel : pre.length = c.bs := by rw [hpre, xorStrings_length]; omega
    rw [pgpDec_eq c hc tag data h pre hpre]
    by_cases hm : lastTwo c.bs pre = xorStrings ((c.enc (data.take c.bs)).take 2) ((data.drop c.bs).take 2)
    · rw [if_pos hm]
      right
      have hl2 := lastTwo_length hbs (show c.bs ≤ pre.length by omega)
      have last : ∀ t : Bytes, lastTwo c.bs (pre ++ t) = lastTwo c.bs pre := by
        intro t
        rw [lastTwo, lastTwo, List.drop_append_of_le_length (by omega), List.take_append_of_le_length
          (by rw [List.length_drop]; omega)]
      refine ⟨_, rfl, ?_⟩
      by_cases h9 : tag = 9
      · rw [if_pos h9, if_pos h9, List.append_assoc, last, List.drop_left' hprel, List.take_left' hl2]
        have : (cfbDec c ((data.drop 2).take c.bs) (data.drop (c.bs + 2))).length = data.length - (c.bs + 2) := by
          rw [cfbDec_length hc _ _ (by rw [List.length_take, List.length_drop]; omega), List.length_drop]
        refine ⟨?_, ?_, rfl⟩ <;> simp only [List.length_append, this, hl2, hprel] <;> omega
      · rw [if_neg h9, if_neg h9, List.append_nil, last, List.drop_left' hprel]
        have : (cfbDec c (data.take c.bs) (data.drop c.bs)).length = data.length - c.bs := by
          rw [cfbDec_length hc _ _ htk, List.length_drop]
        refine ⟨?_, ?_, ?_⟩
        · simp only [List.length_append, this, hprel]; omega
        · simp only [List.length_append, this, hprel]; omega
        · rw [hm, cfbDec_step hc, List.take_append_of_le_length (by
            rw [xorStrings_length, List.length_take, List.length_drop]; omega), xorStrings_take, List.take_take,
            show min 2 c.bs = 2 by omega]
    · rw [if_neg hm]; exact Or.inl rfl
  · left
    unfold pgpCfbDecrypt
    rw [encrypt_eq c _ h0, Out.ok_bind]
    by_cases hs : c.bs ≤ data.length
    · have htk : (data.take c.bs).length = c.bs := by rw [List.length_take]; omega
      have hE1 := hc.enc_len _ htk
      have hprel : (xorStrings (c.enc (List.replicate c.bs 0)) (data.take c.bs)).length = c.bs := by
        rw [xorStrings_length]; omega
      simp only
      rw [encrypt_eq c _ htk, Out.ok_bind, substr_take (by omega), Out.ok_bind, substr_take (by omega), Out.ok_bind,
        if_pos]
      intro hc
      have := congrArg List.length hc
      rw [xorStrings_length, List.length_take, List.length_take, List.length_take, List.length_drop, List.length_drop] at this
      omega
    · simp only
      rw [Cipher.encrypt, if_neg (by rw [List.length_take]; omega)]
      rfl

/-- When the two repeated octets do not match, decryption throws. -/
theorem C16_mismatch_throws (c : Cipher) (hc : c.Ok) (tag : Nat) (data : Bytes) (h : c.bs + 2 ≤ data.length)
    (hne : lastTwo c.bs (xorStrings (c.enc (List.replicate c.bs 0)) (data.take c.bs)) ≠
      xorStrings ((c.enc (data.take c.bs)).take 2) ((data.drop c.bs).take 2)) :
    pgpCfbDecrypt c tag data = .throw := by
  rw [pgpDec_eq c hc tag data h _ rfl, if_neg hne]

example : lastTwo demoCipher.bs (xorStrings (demoCipher.enc (List.replicate demoCipher.bs 0))
      ([0, 0, 0, 0, 0, 0, 0, 0, 1, 1] : Bytes)) ≠
    xorStrings ((demoCipher.enc (([0, 0, 0, 0, 0, 0, 0, 0, 1, 1] : Bytes).take demoCipher.bs)).take 2)
      ((([0, 0, 0, 0, 0, 0, 0, 0, 1, 1] : Bytes).drop demoCipher.bs).take 2) := by decide

/-- Prefixes shorter than the block size + 2 and other packet types are refused. -/
theorem C16_refused (c : Cipher) (hc : c.Ok) (tag : Nat) (data p : Bytes)
    (h : p.length < c.bs + 2 ∨ (tag ≠ 9 ∧ tag ≠ 18)) : pgpCfbEncrypt c tag data p = .throw := by
  unfold pgpCfbEncrypt
  by_cases hp : p.length < c.bs + 2
  · rw [if_pos hp]
  · have h0 : (List.replicate c.bs (0 : UInt8)).length = c.bs := List.length_replicate
    obtain ⟨h1, h2⟩ := h.resolve_left hp
    rw [if_neg hp, encrypt_eq c _ h0, Out.ok_bind]
    simp only
    rw [encrypt_eq c _ (by rw [xorStrings_length, hc.enc_len _ h0, List.length_take]; omega), Out.ok_bind, if_neg h1,
      if_neg h2]

end OpenPGP
