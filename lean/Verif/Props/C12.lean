import Verif.Lemmas.Tag5

/-!
# C12: secret key packets survive write and read
-/
namespace OpenPGP
open Tag5

/-- The secret part of a packet as RFC 4880 prescribes it: usage octet 0 (nothing else), 254 or 255 (cipher octet, S2K
specifier, IV of the cipher's block size), or a cipher octet (IV). The secret octets are arbitrary. -/
def Tag5.protectionWf (t : Tag5) : Prop :=
  (t.s2kCon = 0 ∧ t.sym = 0 ∧ t.s2k = none ∧ t.iv = []) ∨
  ((t.s2kCon = 254 ∨ t.s2kCon = 255) ∧ (∃ s, t.s2k = some s ∧ s.wf) ∧ blockLen t.sym = some t.iv.length) ∨
  (t.s2kCon ≠ 0 ∧ t.s2kCon ≠ 254 ∧ t.s2kCon ≠ 255 ∧ t.sym = t.s2kCon ∧ t.s2k = none ∧ blockLen t.sym = some t.iv.length)

/-- **Which protections these are**, without the tables of the code: initial values of 8 octets for IDEA, Triple-DES, CAST-128 and Blowfish (1 to 4), of 16 for AES, Twofish and
Camellia (7 to 13), salts of 8 octets. -/
theorem C12_prescribed (t : Tag5) : t.protectionWf ↔
    (t.s2kCon = 0 ∧ t.sym = 0 ∧ t.s2k = none ∧ t.iv = []) ∨
    ((((t.s2kCon = 254 ∨ t.s2kCon = 255) ∧ ∃ h salt c, (t.s2k = some (.simple h) ∨ t.s2k = some (.salted h salt) ∨ t.s2k = some (.iterated h salt c)) ∧ salt.length = 8) ∨
        (t.s2kCon ≠ 0 ∧ t.s2kCon ≠ 254 ∧ t.s2kCon ≠ 255 ∧ t.sym = t.s2kCon ∧ t.s2k = none)) ∧
      ((t.sym ∈ [1, 2, 3, 4] ∧ t.iv.length = 8) ∨ (t.sym ∈ [7, 8, 9, 10, 11, 12, 13] ∧ t.iv.length = 16))) := by
  have key : ∀ p : UInt8, ∀ n, blockLen p = some n ↔ (p ∈ [1, 2, 3, 4] ∧ n = 8) ∨ (p ∈ [7, 8, 9, 10, 11, 12, 13] ∧ n = 16) := by
    intro p n
    have h : ∀ i : Fin 256, blockLen (UInt8.ofNat i) = if UInt8.ofNat i ∈ [1, 2, 3, 4] then some 8 else if UInt8.ofNat i ∈ [7, 8, 9, 10, 11, 12, 13] then some 16 else none := by
      decide +kernel
    have d : ¬ (p ∈ [1, 2, 3, 4] ∧ p ∈ [7, 8, 9, 10, 11, 12, 13]) := by
      rintro ⟨h1, h2⟩
      simp only [List.mem_cons, List.not_mem_nil, or_false] at h1
      rcases h1 with rfl | rfl | rfl | rfl <;> revert h2 <;> decide
    have h := h ⟨p.toNat, p.toNat_lt⟩
    simp only [UInt8.ofNat_toNat] at h
    rw [h]
    split_ifs with h1 h2
    · simp only [Option.some.injEq]
      constructor
      · rintro rfl; exact .inl ⟨h1, rfl⟩
      · rintro (⟨-, rfl⟩ | ⟨h2, -⟩)
        · rfl
        · exact absurd ⟨h1, h2⟩ d
    · simp only [Option.some.injEq]
      constructor
      · rintro rfl; exact .inr ⟨h2, rfl⟩
      · rintro (⟨h, -⟩ | ⟨-, rfl⟩)
        · exact absurd h h1
        · rfl
    · simp [h1, h2]
  have ws : (∃ s, t.s2k = some s ∧ s.wf) ↔
      ∃ h salt c, (t.s2k = some (.simple h) ∨ t.s2k = some (.salted h salt) ∨ t.s2k = some (.iterated h salt c)) ∧ salt.length = 8 := by
    constructor
    · rintro ⟨s, hs, hw⟩
      cases s with
      | simple h => exact ⟨h, List.replicate 8 0, 0, .inl hs, rfl⟩
      | salted h salt => exact ⟨h, salt, 0, .inr (.inl hs), hw⟩
      | iterated h salt c => exact ⟨h, salt, c, .inr (.inr hs), hw⟩
    · rintro ⟨h, salt, c, hs | hs | hs, hl⟩
      · exact ⟨_, hs, trivial⟩
      · exact ⟨_, hs, hl⟩
      · exact ⟨_, hs, hl⟩
  unfold Tag5.protectionWf
  rw [key, ws]
  generalize ((t.sym ∈ [1, 2, 3, 4] ∧ t.iv.length = 8) ∨ (t.sym ∈ [7, 8, 9, 10, 11, 12, 13] ∧ t.iv.length = 16)) = A
  constructor
  · rintro (h | ⟨h1, h2, h3⟩ | ⟨h1, h2, h3, h4, h5, h6⟩)
    · exact .inl h
    · exact .inr ⟨.inl ⟨h1, h2⟩, h3⟩
    · exact .inr ⟨.inr ⟨h1, h2, h3, h4, h5⟩, h6⟩
  · rintro (h | ⟨⟨h1, h2⟩ | ⟨h1, h2, h3, h4, h5⟩, h6⟩)
    · exact .inl h
    · exact .inr (.inl ⟨h1, h2, h6⟩)
    · exact .inr (.inr ⟨h1, h2, h3, h4, h5, h6⟩)

theorem Tag5.raw_ok {t : Tag5} (h : t.protectionWf) : ∃ r, t.raw = .ok r := by
  rcases h with ⟨h1, h2, h3, h4⟩ | ⟨h1, ⟨s, h2, -⟩, h3⟩ | ⟨h1, h2, h3, h4, h5, h6⟩
  · simp [Tag5.raw, protectionOctets, hasS2K, h1]
  · rcases h1 with h1 | h1 <;> simp [Tag5.raw, protectionOctets, hasS2K, h1, h2]
  · simp [Tag5.raw, protectionOctets, hasS2K, h2, h3]

theorem Tag5.readAt_of {t : Tag5} (h : t.protectionWf) {data raw : Bytes} {pos : Nat} {rest : Bytes} {part : Bool}
    (hk : ∀ r, data.drop pos = t.key.rawCommon ++ r →
      KeyPkt.readCommon data pos = .ok (t.key, pos + t.key.rawCommon.length))
    (hraw : t.raw = .ok raw) (hd : data.drop pos = raw ++ rest) :
    Tag5.readAt ⟨data, pos, raw.length, part⟩ = .ok t := by
  rw [Tag5.readAt, tagRead, if_neg (raw_length_ne hraw), actualRead_at t hk _ _ _ hraw hd]
  · simp
  · intro h0
    rcases h with h | h | h
    · exact h.2.2.2
    · rcases h.1 with h1 | h1 <;> rw [h1] at h0 <;> exact absurd h0 (by decide)
    · exact absurd h0 h.1
  · rcases h with h | h | h
    · rw [if_neg (by rw [h.1]; decide)]
      exact ⟨h.2.1.trans h.1.symm, h.2.2.1⟩
    · rw [if_pos (by rcases h.1 with h1 | h1 <;> rw [h1] <;> decide)]
      exact h.2.1
    · rw [if_neg (by simp [hasS2K, h.2.1, h.2.2.1])]
      exact ⟨h.2.2.2.1, h.2.2.2.2.1⟩
  · intro h0
    rcases h with h | h | h
    · exact absurd h.1 h0
    · exact h.2.2
    · exact h.2.2.2.2.2

/-- A version 4 secret key or subkey packet, with any S2K usage, cipher, specifier, IV and secret octets, is written
without error and read back as the same object wherever it stands in the input. -/
theorem C12_v4 (t : Tag5) (hk : t.key.wfV4) (h : t.protectionWf) :
    ∃ raw, t.raw = .ok raw ∧ ∀ (data : Bytes) (pos : Nat) (rest : Bytes), data.drop pos = raw ++ rest →
      Tag5.readAt ⟨data, pos, raw.length, false⟩ = .ok t := by
  obtain ⟨raw, hraw⟩ := raw_ok h
  exact ⟨raw, hraw, fun data pos rest hd =>
    readAt_of h (fun r hr => KeyPkt.readCommon_v4 t.key hk hr) hraw hd⟩

/-- An RSA secret key protected with SHA-1, AES-128 and an iterated specifier. -/
def c12Key : Tag5 :=
  ⟨⟨4, 1500000000, 1, [0xffee, 17], 0⟩, 254, 7, some (.iterated 2 [1, 2, 3, 4, 5, 6, 7, 8] 96), List.replicate 16 9,
    [1, 2, 3]⟩

example : c12Key.key.wfV4 ∧ c12Key.protectionWf :=
  ⟨⟨rfl, by decide, by decide, by decide, rfl⟩, Or.inr (Or.inl ⟨Or.inl rfl, ⟨_, rfl, rfl⟩, by decide⟩)⟩

/-- Version 2 and 3 secret keys likewise, if neither octet of the expiry is 128 or more (see C11). -/
theorem C12_v3_partial (t : Tag5) (hk : t.key.wfV3) (he : t.key.expire / 256 < 128 ∧ t.key.expire % 256 < 128)
    (h : t.protectionWf) :
    ∃ raw, t.raw = .ok raw ∧ ∀ (data : Bytes) (pos : Nat) (rest : Bytes), data.drop pos = raw ++ rest →
      Tag5.readAt ⟨data, pos, raw.length, false⟩ = .ok t := by
  obtain ⟨raw, hraw⟩ := raw_ok h
  refine ⟨raw, hraw, fun data pos rest hd => readAt_of h (fun r hr => ?_) hraw hd⟩
  rw [KeyPkt.readCommon_v3 t.key hk hr, KeyPkt.expireOf_small he.1 he.2]

/-- A version 3 key protected the old way (IDEA, MD5 of the passphrase). -/
def c12Old : Tag5 := ⟨⟨3, 1000, 1, [0xc0ffee, 17], 100⟩, 1, 1, none, List.replicate 8 5, [1, 2, 3]⟩

example : c12Old.key.wfV3 ∧ (c12Old.key.expire / 256 < 128 ∧ c12Old.key.expire % 256 < 128) ∧ c12Old.protectionWf :=
  ⟨⟨by decide, rfl, by decide, by decide, by decide⟩, by decide,
    Or.inr (Or.inr ⟨by decide, by decide, by decide, rfl, rfl, by decide⟩)⟩

/-- Writing a packet that claims an S2K specifier but has none is refused. -/
theorem C12_missing_s2k (t : Tag5) (h : t.s2kCon = 254 ∨ t.s2kCon = 255) (hs : t.s2k = none) : t.raw = .throw := by
  rcases h with h | h <;> simp [Tag5.raw, protectionOctets, hasS2K, h, hs]

example : (254 : UInt8) = 254 ∨ (254 : UInt8) = 255 := Or.inl rfl

/-- Disagreement: a packet whose declared length is too small for its own fields is not refused; the secret octets are
then taken from the rest of the input (the length computation wraps around). Here the body has 9 octets (a version 4
RSA key with two one-bit MPIs needs 12), and the octet of the next packet becomes the secret. -/
theorem C12_short_length_fails :
    ∃ t, Tag5.readAt ⟨[4, 0, 0, 0, 0, 1, 0, 1, 1, 0, 1, 1, 0, 0xaa, 0xbb], 0, 9, false⟩ = .ok t ∧ t.secret = [0xaa, 0xbb] := by
  refine ⟨⟨⟨4, 0, 1, [1, 1], 0⟩, 0, 0, none, [], [0xaa, 0xbb]⟩, by decide +kernel, rfl⟩

end OpenPGP
