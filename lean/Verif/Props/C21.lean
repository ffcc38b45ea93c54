import Verif.Props.C12
import Verif.Props.C20

/-!
# C21: a protected secret key is recovered with its passphrase

Proved for usage 0 (no protection), 255 and legacy cipher octets (16-bit checksum) and for usage 254 when the specifier's
hash is SHA-1. With usage 254 and another hash the code appends a digest that it does not check again:
`C21_other_hash_fails`.
-/
namespace OpenPGP
open Tag5

/-- The packet has what its usage octet needs: nothing (0); a specifier with known hash, a known cipher and an IV of its
block size (254, 255); or a cipher with 16-octet keys and its IV (legacy). -/
def Tag5.canProtect (t : Tag5) : Prop :=
  t.s2kCon = 0 ∨
  ((t.s2kCon = 254 ∨ t.s2kCon = 255) ∧ (∃ s, t.s2k = some s ∧ s.wf ∧ (hashLen s.hash).isSome) ∧
    (keyLen t.sym).isSome ∧ blockLen t.sym = some t.iv.length) ∨
  (t.s2kCon ≠ 0 ∧ t.s2kCon ≠ 254 ∧ t.s2kCon ≠ 255 ∧ keyLen t.sym = some 16 ∧ blockLen t.sym = some t.iv.length)

theorem keyLen_ne_zero {s : UInt8} (h : (keyLen s).isSome) : s ≠ 0 := by
  rintro rfl; exact absurd h (by decide)

theorem Tag5.setup_ok {cr : Crypto} (hcr : cr.Ok) {t : Tag5} (h : t.canProtect) (h0 : t.s2kCon ≠ 0) (pass : Bytes) :
    ∃ key c, calculateKey cr t pass = .ok key ∧ t.sym ≠ 0 ∧ symSetup cr t.sym key = .ok c ∧ c.Ok ∧ t.iv.length = c.bs := by
  have fin : ∀ key n, keyLen t.sym = some n → key.length = n → blockLen t.sym = some t.iv.length →
      ∃ c, t.sym ≠ 0 ∧ symSetup cr t.sym key = .ok c ∧ c.Ok ∧ t.iv.length = c.bs := by
    intro key n hn hl hb
    obtain ⟨c, h1, h2, h3⟩ := hcr.cipher_ok t.sym n key hn hl
    refine ⟨c, keyLen_ne_zero (by rw [hn]; rfl), ?_, h2, ?_⟩
    · rw [symSetup, if_pos (by rw [hb]; rfl), h1]
    · rw [hb] at h3; exact Option.some.inj h3
  rcases h with h | ⟨h1, ⟨s, h2, h3, h4⟩, h5, h6⟩ | ⟨h1, h2, h3, h4, h5⟩
  · exact absurd h h0
  · obtain ⟨n, hn⟩ := Option.isSome_iff_exists.mp h5
    obtain ⟨D, hD⟩ := Option.isSome_iff_exists.mp h4
    have hp := S2K.hashLen_pos hD
    obtain ⟨key, hk1, hk2, -⟩ := C20_run cr hcr s h3 D hD pass n n (Nat.le_mul_of_pos_right n (by omega))
    obtain ⟨c, hc⟩ := fin key n hn hk2 h6
    refine ⟨key, c, ?_, hc⟩
    rw [calculateKey, if_neg h0, if_pos (by rcases h1 with h1 | h1 <;> rw [h1] <;> decide), h2]
    simp only
    rw [hn, mapAt, Out.ok_bind, hk1]
  · obtain ⟨c, hc⟩ := fin (cr.hash 1 pass) 16 h4 (hcr.hash_len 1 16 pass rfl) h5
    refine ⟨_, c, ?_, hc⟩
    rw [calculateKey, if_neg h0, if_neg (by simp [hasS2K, h2, h3])]

/-- What encrypting and decrypting does, whatever the checksum: the octets are restored. -/
theorem Tag5.plain_restored {cr : Crypto} (hcr : cr.Ok) {t : Tag5} (h : t.canProtect) (pass : Bytes) (keys : List Nat)
    (sum : Bytes) (hs : encryptChecksum cr t (writeMPIs keys) = .ok sum) :
    ∃ t', encryptSecretKeys cr t pass keys = .ok t' ∧ t' = { t with secret := t'.secret } ∧
      plainSecret cr t' pass = .ok (writeMPIs keys ++ sum) := by
  by_cases h0 : t.s2kCon = 0
  · refine ⟨{ t with secret := writeMPIs keys ++ sum }, ?_, rfl, ?_⟩
    · rw [encryptSecretKeys]
      dsimp only
      rw [hs, Out.ok_bind, if_neg (by simpa using h0)]; rfl
    · rw [plainSecret, if_neg (by simpa using h0)]
  · obtain ⟨key, c, h1, h2, h3, h4, h5⟩ := setup_ok hcr h h0 pass
    obtain ⟨ct, e1, e2, e3⟩ := C17_roundtrip c h4 (writeMPIs keys ++ sum) t.iv h5
    refine ⟨{ t with secret := ct }, ?_, rfl, ?_⟩
    · rw [encryptSecretKeys]
      dsimp only
      rw [hs, Out.ok_bind, if_pos h0, h1, Out.ok_bind, useNormalCfbEncrypt, if_neg h2, h3, Out.ok_bind, e1]; rfl
    · rw [plainSecret, if_pos (by exact h0)]
      have h1' : calculateKey cr { t with secret := ct } pass = .ok key := h1
      rw [h1', Out.ok_bind]
      dsimp only
      rw [useNormalCfbDecrypt, if_neg h2, h3, Out.ok_bind, e3]

/-- Encrypting and decrypting with the same passphrase returns the same integers, for every usage octet (with SHA-1 as
the specifier's hash when the usage is 254), cipher, specifier, IV, passphrase and list of integers. -/
theorem C21_roundtrip_partial (cr : Crypto) (hcr : cr.Ok) (t : Tag5) (h : t.canProtect)
    (h254 : t.s2kCon = 254 → ∃ s, t.s2k = some s ∧ s.hash = 2) (pass : Bytes) (keys : List Nat)
    (hk : ∀ a ∈ keys, bitsize a ≤ 65528) :
    ∃ t', encryptSecretKeys cr t pass keys = .ok t' ∧ decryptSecretKeys cr t' pass = .ok keys := by
  have hsum : ∃ sum, encryptChecksum cr t (writeMPIs keys) = .ok sum ∧
      decryptChecksum cr t (writeMPIs keys) = .ok sum ∧ sum.length = t.hashSize := by
    by_cases hc : t.s2kCon = 254
    · obtain ⟨s, h1, h2⟩ := h254 hc
      refine ⟨cr.hash 2 (writeMPIs keys), ?_, ?_, ?_⟩
      · rw [encryptChecksum, if_pos hc, h1]
        simp only [h2]; rfl
      · rw [decryptChecksum, if_pos hc]; rfl
      · rw [hashSize, if_pos hc]; exact hcr.hash_len 2 20 _ rfl
    · exact ⟨be 2 (octetSum (writeMPIs keys)), by rw [encryptChecksum, if_neg hc], by rw [decryptChecksum, if_neg hc],
        by rw [hashSize, if_neg hc, be_length]⟩
  obtain ⟨sum, h1, h2, h3⟩ := hsum
  obtain ⟨t', e1, e2, e3⟩ := plain_restored hcr h pass keys sum h1
  refine ⟨t', e1, ?_⟩
  have hcon : t'.s2kCon = t.s2kCon := by rw [e2]
  have hds : decryptChecksum cr t' (writeMPIs keys) = .ok sum := by
    rw [decryptChecksum, hcon]; exact h2
  rw [decryptSecretKeys, e3, Out.ok_bind, checkAndParse_eq cr t' _ sum (by rw [hashSize, hcon]; exact h3), hds, Out.ok_bind,
    if_neg (by simp), readAllMPIs_write keys hk]

example : demoCrypto.Ok ∧ c12Key.canProtect ∧ (c12Key.s2kCon = 254 → ∃ s, c12Key.s2k = some s ∧ s.hash = 2) ∧
    c12Old.canProtect :=
  ⟨demoCrypto_ok, Or.inr (Or.inl ⟨Or.inl rfl, ⟨_, rfl, rfl, rfl⟩, rfl, by decide⟩), fun _ => ⟨_, rfl, rfl⟩,
    Or.inr (Or.inr ⟨by decide, by decide, by decide, by decide, by decide⟩)⟩

/-- Disagreement: with usage 254 and a specifier whose hash is not SHA-1, what is stored is the digest under that hash,
but decryption takes the last 20 octets as a SHA-1 digest. Nothing is returned unless the SHA-1 of everything but the
last 20 octets happens to equal them. -/
theorem C21_other_hash_fails (cr : Crypto) (hcr : cr.Ok) (t : Tag5) (h : t.canProtect) (hc : t.s2kCon = 254)
    (s : S2K) (hs : t.s2k = some s) (D : Nat) (hD : hashLen s.hash = some D) (pass : Bytes) (keys : List Nat)
    (hl : 20 ≤ (writeMPIs keys).length + D) (all : Bytes)
    (hall : all = writeMPIs keys ++ cr.hash s.hash (writeMPIs keys))
    (hno : cr.hash 2 (all.take (all.length - 20)) ≠ all.drop (all.length - 20)) :
    ∃ t', encryptSecretKeys cr t pass keys = .ok t' ∧ decryptSecretKeys cr t' pass = .ok [] := by
  have hsum : encryptChecksum cr t (writeMPIs keys) = .ok (cr.hash s.hash (writeMPIs keys)) := by
    rw [encryptChecksum, if_pos hc, hs]
    simp only
    rw [hashUse, if_pos (by rw [hD]; rfl)]
  obtain ⟨t', e1, e2, e3⟩ := plain_restored hcr h pass keys _ hsum
  refine ⟨t', e1, ?_⟩
  have hcon : t'.s2kCon = 254 := by rw [e2]; exact hc
  have hlen : 20 ≤ all.length := by rw [hall, List.length_append, hcr.hash_len _ _ _ hD]; exact hl
  rw [decryptSecretKeys, e3, Out.ok_bind, ← hall]
  conv_lhs => rw [← List.take_append_drop (all.length - 20) all]
  rw [checkAndParse_eq cr t' _ _ (by rw [hashSize, if_pos hcon, List.length_drop]; omega), decryptChecksum, if_pos hcon,
    hashUse, if_pos (by rfl), Out.ok_bind, if_pos hno]

/-- With SHA-256 in the specifier and a key `5`. -/
def c21Sha256 : Tag5 := { c12Key with s2k := some (.salted 8 [1, 2, 3, 4, 5, 6, 7, 8]) }

example : c21Sha256.canProtect ∧ c21Sha256.s2kCon = 254 ∧ hashLen (S2K.salted 8 [1, 2, 3, 4, 5, 6, 7, 8]).hash = some 32 ∧
    demoCrypto.hash 2 ((writeMPIs [5] ++ demoCrypto.hash 8 (writeMPIs [5])).take 15) ≠
      (writeMPIs [5] ++ demoCrypto.hash 8 (writeMPIs [5])).drop 15 := by
  refine ⟨Or.inr (Or.inl ⟨Or.inl rfl, ⟨_, rfl, rfl, rfl⟩, rfl, by decide⟩), rfl, rfl, by decide +kernel⟩

end OpenPGP
