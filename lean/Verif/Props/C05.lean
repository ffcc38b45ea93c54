import Verif.Lemmas.Framing
import Verif.Spec.Framing

/-!
# C05: packet length headers are read back as written

The full property is false of the code:
* new format, bodies of 8128..8383 octets: the reader's test is `first_octet < 223`
  (`C05_new_8128_fails`);
* old format, bodies of 65536 octets and more: the reader skips the first of the four length octets
  (`C05_old_large_fails`);
* `write_new_length` asked for two length octets and a body below 192 octets (`C05_new_two_octets_fails`).
-/
namespace OpenPGP
open Spec

/-- What the writer emits is the RFC 4880 form. -/
theorem C05_new_writer_rfc (tag : Nat) (body : Bytes) (ht : tag < 64) :
    writeNewLength tag body = .ok (rfcNewPacket tag body) := by
  have hc : 0xc0 ||| tag = 192 + tag := by
    have : ∀ t : Fin 64, 0xc0 ||| t.val = 192 + t.val := by decide
    exact this ⟨tag, ht⟩
  have hl : newLengthOctets body.length 0 = rfcNewLength body.length := by
    unfold newLengthOctets rfcNewLength
    have h0 : newOctets body.length 0 = 0 := rfl
    simp only [h0, true_and, Nat.zero_ne_one, false_or, show ¬ (0 : Nat) = 2 by omega,
      show ¬ (0 : Nat) = 5 by omega]
    by_cases h1 : body.length ≤ 191
    · rw [if_pos h1, if_pos (show body.length < 192 by omega)]
    · rw [if_neg h1, if_neg (show ¬ body.length < 192 by omega)]
      by_cases h2 : body.length ≤ 8383
      · rw [if_pos (show 192 ≤ body.length ∧ body.length ≤ 8383 by omega), if_pos (show body.length < 8384 by omega)]
        have : subSz body.length 0xc0 = body.length - 192 := by unfold subSz; rw [if_pos (by omega)]
        have e : UInt8.ofNat ((body.length - 192) % 256) = UInt8.ofNat (body.length - 192) := by
          apply UInt8.toNat_inj.mp
          simp
        rw [this, e]
      · rw [if_neg (show ¬ (192 ≤ body.length ∧ body.length ≤ 8383) by omega),
          if_neg (show ¬ body.length < 8384 by omega), if_pos (show body.length > 8383 by omega)]
  simp [writeNewLength, writeNewDefinite, rfcNewPacket, hc, hl]

theorem C05_old_writer_rfc (tag : Nat) (body : Bytes) (ht : tag < 16) :
    writeOldLength tag body = rfcOldPacket tag body := by
  have hc : ∀ t : Fin 16, UInt8.ofNat (0x80 ||| (t.val <<< 2)) = UInt8.ofNat (128 + 4 * t.val) ∧
      UInt8.ofNat (0x80 ||| (t.val <<< 2)) ||| 1 = UInt8.ofNat (128 + 4 * t.val + 1) ∧
      UInt8.ofNat (0x80 ||| (t.val <<< 2)) ||| 2 = UInt8.ofNat (128 + 4 * t.val + 2) := by decide
  obtain ⟨h0, h1, h2⟩ := hc ⟨tag, ht⟩
  simp only [writeOldLength, rfcOldPacket, oldHeader, oldOctets, Bool.false_eq_true, if_false, Nat.zero_ne_one,
    show ¬ (0 : Nat) = 2 by omega, show ¬ ((0 : Nat) = 3 ∨ (0 : Nat) = 4 ∨ (0 : Nat) > 5) by omega, true_and, false_or,
    show ¬ (0 : Nat) = 5 by omega]
  by_cases a : body.length < 256
  · rw [if_pos a, if_pos a]; simp only at h0; rw [h0]; rfl
  · by_cases b : body.length < 65536
    · rw [if_neg a, if_pos ⟨by omega, b⟩, if_neg a, if_pos b]; simp only at h1; rw [h1]
    · rw [if_neg a, if_neg (by omega), if_pos (by omega), if_neg a, if_neg b]; simp only at h2; rw [h2]

/-- New format: the header written for a body is read back to the same tag, format and length, and the position is
left behind the body, which starts where the reader says.  Missing: bodies of 8128..8383 octets. -/
theorem C05_new_header_partial (tag : Nat) (body pre post : Bytes) (ht : tag < 64)
    (hn : body.length < 2 ^ 32) (hg : ¬ (8128 ≤ body.length ∧ body.length ≤ 8383)) :
    ∃ enc ctb start, writeNewLength tag body = .ok enc ∧
      readPacketHeader (pre ++ enc ++ post) pre.length = .ok (ctb, .new, tag, pre.length + 1) ∧
      readUnformatted .new ctb (pre ++ enc ++ post) (pre.length + 1)
        = .ok (⟨pre ++ enc ++ post, start, body.length, false⟩, pre.length + enc.length) ∧
      (pre ++ enc ++ post).drop start = body ++ post ∧ start + body.length = pre.length + enc.length := by
  have hd : (pre ++ packetOctets .new tag body ++ post).drop pre.length = packetOctets .new tag body ++ post := by
    rw [List.append_assoc, List.drop_left]
  obtain ⟨ctb, start, h1, h2, h3, h4, _⟩ := frame_at hd ht ⟨hn, hg⟩
  exact ⟨packetOctets .new tag body, ctb, start, by simp [writeNewLength, packetOctets], h1, h2, h4, h3⟩

/-- Old format. Missing: bodies of 65536 octets and more. -/
theorem C05_old_header_partial (tag : Nat) (body pre post : Bytes) (ht : tag < 16)
    (hn : body.length < 65536) :
    ∃ enc ctb start, writeOldLength tag body = enc ∧
      readPacketHeader (pre ++ enc ++ post) pre.length = .ok (ctb, .old, tag, pre.length + 1) ∧
      readUnformatted .old ctb (pre ++ enc ++ post) (pre.length + 1)
        = .ok (⟨pre ++ enc ++ post, start, body.length, false⟩, pre.length + enc.length) ∧
      (pre ++ enc ++ post).drop start = body ++ post ∧ start + body.length = pre.length + enc.length := by
  have hd : (pre ++ packetOctets .old tag body ++ post).drop pre.length = packetOctets .old tag body ++ post := by
    rw [List.append_assoc, List.drop_left]
  obtain ⟨ctb, start, h1, h2, h3, h4, _⟩ := frame_at hd ht hn
  exact ⟨packetOctets .old tag body, ctb, start, rfl, h1, h2, h4, h3⟩

/-- New format, every body of 8128..8383 octets: the reader finds an empty body at offset 0 of the whole input and does
not even move past the length octets. -/
theorem C05_new_8128_fails (tag : Nat) (body pre post : Bytes) (ht : tag < 64)
    (hlo : 8128 ≤ body.length) (hhi : body.length ≤ 8383) :
    ∃ enc ctb, writeNewLength tag body = .ok enc ∧
      readPacketHeader (pre ++ enc ++ post) pre.length = .ok (ctb, .new, tag, pre.length + 1) ∧
      readUnformatted .new ctb (pre ++ enc ++ post) (pre.length + 1)
        = .ok (⟨pre ++ enc ++ post, 0, 0, false⟩, pre.length + 1) := by
  refine ⟨_, UInt8.ofNat (0xc0 ||| tag), rfl, ?_, ?_⟩
  · apply newCtb tag ht _ _ (newLengthOctets body.length 0 ++ body ++ post)
    simp [writeNewDefinite]
  · have hl : newLengthOctets body.length 0 = [223, UInt8.ofNat (body.length - 192)] := by
      unfold newLengthOctets
      have h0 : newOctets body.length 0 = 0 := rfl
      simp only [h0, true_and, Nat.zero_ne_one, false_or, show ¬ (0 : Nat) = 2 by omega]
      rw [if_neg (by omega), if_pos (by omega)]
      have : subSz body.length 0xc0 = body.length - 192 := by unfold subSz; rw [if_pos (by omega)]
      rw [this, show (body.length - 192) / 256 + 0xc0 = 223 by omega]
      rfl
    have hd : (pre ++ writeNewDefinite tag body ++ post).drop (pre.length + 1)
        = 223 :: (UInt8.ofNat (body.length - 192) :: (body ++ post)) := by
      rw [← List.drop_drop]; simp [writeNewDefinite, hl]
    simp only [readUnformatted, charAt_drop hd, Out.ok_bind]
    rfl

/-- Old format, every body of 65536 octets and more: the body starts at `pre.length + 5`, the reader says
`pre.length + 6`, and takes the first body octet for a length octet. -/
theorem C05_old_large_fails (tag : Nat) (b0 : UInt8) (body pre post : Bytes) (ht : tag < 16)
    (hlo : 65536 ≤ (b0 :: body).length) :
    ∃ ctb, readPacketHeader (pre ++ writeOldLength tag (b0 :: body) ++ post) pre.length
        = .ok (ctb, .old, tag, pre.length + 1) ∧
      (pre ++ writeOldLength tag (b0 :: body) ++ post).drop (pre.length + 5) = b0 :: body ++ post ∧
      ∃ len pos', readUnformatted .old ctb (pre ++ writeOldLength tag (b0 :: body) ++ post) (pre.length + 1)
        = .ok (⟨pre ++ writeOldLength tag (b0 :: body) ++ post, pre.length + 6, len, false⟩, pos') ∧
        len = (b0 :: body).length % 2 ^ 24 * 256 + b0.toNat := by
  set n := (b0 :: body).length with hn
  have he : writeOldLength tag (b0 :: body)
      = (UInt8.ofNat (0x80 ||| (tag <<< 2)) ||| 2) :: (be 4 n ++ b0 :: body) := by
    simp only [writeOldLength, oldHeader, oldOctets, Bool.false_eq_true, if_false, Nat.zero_ne_one,
      show ¬ (0 : Nat) = 2 by omega, show ¬ ((0 : Nat) = 3 ∨ (0 : Nat) = 4 ∨ (0 : Nat) > 5) by omega, true_and,
      false_or, show ¬ (0 : Nat) = 5 by omega]
    rw [if_neg (by omega), if_neg (by omega), if_pos (by omega)]
    rfl
  rw [he]
  have hd : (pre ++ (UInt8.ofNat (0x80 ||| (tag <<< 2)) ||| 2) :: (be 4 n ++ b0 :: body) ++ post).drop pre.length
      = (UInt8.ofNat (0x80 ||| (tag <<< 2)) ||| 2) :: (be 4 n ++ b0 :: body ++ post) := by simp
  obtain ⟨hh, hk⟩ := oldCtb tag ht 2 (by decide) _ _ _ hd
  have hd1 := drop_succ_of hd
  have hd5 := drop_add_of (m := be 4 n) (rest := b0 :: body ++ post) (hd1.trans (by simp))
  refine ⟨_, hh, by rw [be_length] at hd5; exact hd5, ?_⟩
  have k0 : ¬ (UInt8.ofNat (0x80 ||| (tag <<< 2)) ||| 2) &&& 3 = 0 := by rw [hk]; decide
  have k1 : ¬ (UInt8.ofNat (0x80 ||| (tag <<< 2)) ||| 2) &&& 3 = 1 := by rw [hk]; decide
  have hb : be 4 n = UInt8.ofNat (n / 256 / 256 / 256) :: be 3 n := rfl
  have hb3 : be 4 n ++ b0 :: body ++ post
      = UInt8.ofNat (n / 256 / 256 / 256) :: ((be 3 n ++ [b0]) ++ (body ++ post)) := by
    rw [hb]; simp
  rw [hb3] at hd1
  have hd2 := drop_succ_of hd1
  have hl := le_of_drop_cons hd1
  refine ⟨_, pre.length + 6 + (n % 2 ^ 24 * 256 + b0.toNat), ?_, rfl⟩
  simp only [readUnformatted, if_neg k0, if_neg k1, if_pos hk, readFiveOctet]
  rw [substr_drop (n := 4) hl hd2 (by simp), Out.ok_bind]
  simp only [Out.pure_eq, Out.ok_bind, toint256, num_append, num_be, num_singleton]
  have hb0 := b0.toNat_lt
  have e : (n % 256 ^ 3 * 256 ^ [b0].length + b0.toNat) % 2 ^ 64 = n % 2 ^ 24 * 256 + b0.toNat := by
    simp only [List.length_singleton]; omega
  rw [e]

/-- Asking for two length octets for a body below 192 octets writes a header that announces 191 octets. -/
theorem C05_new_two_octets_fails (tag : Nat) (body pre post : Bytes) (ht : tag < 64) (hn : body.length < 192) :
    ∃ enc ctb, writeNewLength tag body false 2 = .ok enc ∧
      readPacketHeader (pre ++ enc ++ post) pre.length = .ok (ctb, .new, tag, pre.length + 1) ∧
      readUnformatted .new ctb (pre ++ enc ++ post) (pre.length + 1)
        = .ok (⟨pre ++ enc ++ post, pre.length + 2, 191, false⟩, pre.length + 2 + 191) := by
  refine ⟨writeNewDefinite tag body 2, UInt8.ofNat (0xc0 ||| tag), rfl, ?_, ?_⟩
  · apply newCtb tag ht _ _ (newLengthOctets body.length 2 ++ body ++ post)
    simp [writeNewDefinite]
  · have hl : newLengthOctets body.length 2 = [191, UInt8.ofNat (subSz body.length 0xc0)] := by
      unfold newLengthOctets newOctets
      simp only [show ¬ (2 : Nat) = 1 by omega, if_false, if_true, show ¬ body.length > 8382 by omega,
        show ¬ (2 : Nat) = 0 by omega, false_and, or_false]
      have h2 : subSz body.length 0xc0 = body.length + 2 ^ 64 - 192 := by
        unfold subSz; rw [if_neg (by omega)]
      rw [h2]
      congr 1
      apply UInt8.toNat_inj.mp
      rw [UInt8.toNat_ofNat']
      simp only [UInt8.reduceToNat]
      omega
    have hd : (pre ++ writeNewDefinite tag body 2 ++ post).drop (pre.length + 1)
        = 191 :: (UInt8.ofNat (subSz body.length 0xc0) :: (body ++ post)) := by
      rw [← List.drop_drop]; simp [writeNewDefinite, hl]
    simp only [readUnformatted, charAt_drop hd, Out.ok_bind]
    rw [if_neg (by decide)]
    simp only [newDefinite]
    rw [if_pos (by decide)]
    simp only [readOneOctet, charAt_drop hd, Out.ok_bind, Out.pure_eq]
    rfl

/-- Any other requested octet count gives the same header as the default one, or (5) a five-octet
length that is read back exactly. -/
theorem C05_new_requested (n octets : Nat) (h2 : octets = 2 → 192 ≤ n) (h5 : octets ≠ 5) (hn : n ≠ 8383 ∨ octets ≠ 2) :
    newLengthOctets n octets = newLengthOctets n 0 := by
  unfold newLengthOctets newOctets
  by_cases a1 : octets = 1
  · subst a1
    by_cases h : n > 191
    · simp [h]
    · simp [h, show n ≤ 191 by omega]
  by_cases a2 : octets = 2
  · subst a2
    have := h2 rfl
    by_cases h : n > 8382
    · simp [h]
    · simp [h, show ¬ n ≤ 191 by omega, show n ≤ 8383 by omega, this]
  by_cases a0 : octets = 0
  · subst a0; rfl
  · simp [a1, a2, show octets = 3 ∨ octets = 4 ∨ octets > 5 by omega]

theorem C05_new_requested_five (tag : Nat) (body pre post : Bytes) (ht : tag < 64) (hn : body.length < 2 ^ 32) :
    ∃ enc ctb, writeNewLength tag body false 5 = .ok enc ∧
      readPacketHeader (pre ++ enc ++ post) pre.length = .ok (ctb, .new, tag, pre.length + 1) ∧
      readUnformatted .new ctb (pre ++ enc ++ post) (pre.length + 1)
        = .ok (⟨pre ++ enc ++ post, pre.length + 6, body.length, false⟩, pre.length + enc.length) ∧
      (pre ++ enc ++ post).drop (pre.length + 6) = body ++ post := by
  have hl : newLengthOctets body.length 5 = 255 :: be 4 body.length := by
    simp [newLengthOctets, newOctets]
  have hd : (pre ++ writeNewDefinite tag body 5 ++ post).drop (pre.length + 1)
      = 255 :: (be 4 body.length ++ (body ++ post)) := by
    rw [← List.drop_drop]; simp [writeNewDefinite, hl]
  have hd1 := drop_succ_of hd
  have hd2 := drop_add_of hd1
  rw [be_length] at hd2
  refine ⟨writeNewDefinite tag body 5, UInt8.ofNat (0xc0 ||| tag), rfl, ?_, ?_, hd2⟩
  · apply newCtb tag ht _ _ (newLengthOctets body.length 5 ++ body ++ post)
    simp [writeNewDefinite]
  · simp only [readUnformatted, charAt_drop hd, Out.ok_bind]
    rw [if_neg (by decide)]
    simp only [newDefinite]
    rw [if_neg (by decide), if_neg (by decide), if_pos trivial]
    simp only [readFiveOctet]
    rw [substr_drop (n := 4) (le_of_drop_cons hd) hd1 (be_length 4 _), Out.ok_bind, toint256_be4 _ hn]
    simp only [Out.ok_bind, Out.pure_eq, writeNewDefinite, hl, List.length_cons, List.length_append, be_length]
    congr 2; omega

/-- Concrete: a 200-octet body behind one other octet. -/
example : ∃ enc ctb, writeNewLength 11 (List.replicate 200 7) = .ok enc ∧
    readPacketHeader ([1] ++ enc ++ [2]) 1 = .ok (ctb, .new, 11, 2) ∧
    readUnformatted .new ctb ([1] ++ enc ++ [2]) 2 = .ok (⟨[1] ++ enc ++ [2], 4, 200, false⟩, 204) :=
  ⟨_, 0xcb, rfl, by decide +kernel, by decide +kernel⟩
example : (8128 ≤ (List.replicate 8200 (0 : UInt8)).length) ∧ (List.replicate 8200 (0 : UInt8)).length ≤ 8383 := by
  rw [List.length_replicate]; omega

end OpenPGP
