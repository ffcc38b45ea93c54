import Verif.Props.C21

/-!
# C22: a damaged secret key is rejected

`decrypt_secret_keys` reports a wrong passphrase or damaged data with an empty list.
-/
namespace OpenPGP
open Tag5

/-- The checksum the standard prescribes for a usage octet: SHA-1 for 254, otherwise the sum of the octets modulo 65536. -/
def storedChecksum (cr : Crypto) (con : UInt8) (m : Bytes) : Bytes :=
  if con = 254 then cr.hash 2 m else be 2 ((m.map UInt8.toNat).sum % 65536)

theorem octetSum_eq (b : Bytes) : octetSum b = (b.map UInt8.toNat).sum % 65536 := by
  have : ∀ (b : Bytes) (a : Nat), b.foldl (fun a c => a + c.toNat) a = a + (b.map UInt8.toNat).sum := by
    intro b
    induction b with
    | nil => intro a; simp
    | cons c b ih => intro a; simp only [List.foldl_cons, List.map_cons, List.sum_cons]; rw [ih]; omega
  rw [octetSum, this, Nat.zero_add]

theorem decryptChecksum_eq (cr : Crypto) (t : Tag5) (m : Bytes) :
    decryptChecksum cr t m = .ok (storedChecksum cr t.s2kCon m) := by
  rw [decryptChecksum, storedChecksum]
  split
  · rfl
  · rw [octetSum_eq]

/-- Whatever the packet and passphrase: if values are returned, the decrypted octets end with the checksum of the octets
before it, and the values are the integers of those octets. -/
theorem C22_checksum (cr : Crypto) (t : Tag5) (pass : Bytes) (l : List Nat)
    (h : decryptSecretKeys cr t pass = .ok l) (hl : l ≠ []) :
    ∃ m sum, plainSecret cr t pass = .ok (m ++ sum) ∧ sum = storedChecksum cr t.s2kCon m ∧
      sum.length = (if t.s2kCon = 254 then 20 else 2) ∧ readAllMPIs m (m.length + 1) 0 = .ok l := by
  rw [decryptSecretKeys, Out.bind_eq_ok] at h
  obtain ⟨p, hp, h⟩ := h
  have hh : t.hashSize ≤ 20 := by rw [hashSize]; split <;> omega
  by_cases hs : p.length < t.hashSize
  · rw [checkAndParse_short cr t p hs (by omega)] at h
    exact absurd h (by simp)
  · have e : p = p.take (p.length - t.hashSize) ++ p.drop (p.length - t.hashSize) := (List.take_append_drop _ p).symm
    have el : (p.drop (p.length - t.hashSize)).length = t.hashSize := by rw [List.length_drop]; omega
    rw [e, checkAndParse_eq cr t _ _ el, decryptChecksum_eq, Out.ok_bind] at h
    split at h
    · exact absurd (Out.ok.inj h).symm hl
    · rename_i heq
      exact ⟨_, _, by rw [← e]; exact hp, by simpa using Eq.symm (not_not.mp heq), el, h⟩

/-- The key of C12 protected with "pw" is such a case: values are returned. -/
example : ∃ t, encryptSecretKeys demoCrypto c12Key [112, 119] [5, 7] = .ok t ∧
    decryptSecretKeys demoCrypto t [112, 119] = .ok [5, 7] :=
  C21_roundtrip_partial demoCrypto demoCrypto_ok c12Key
    (Or.inr (Or.inl ⟨Or.inl rfl, ⟨_, rfl, rfl, rfl⟩, rfl, by decide⟩)) (fun _ => ⟨_, rfl, rfl⟩) [112, 119] [5, 7] (by decide)

/-- When the stored checksum disagrees with the decrypted octets, nothing is returned. -/
theorem C22_rejects (cr : Crypto) (t : Tag5) (pass m sum : Bytes)
    (hp : plainSecret cr t pass = .ok (m ++ sum)) (hs : sum.length = if t.s2kCon = 254 then 20 else 2)
    (hne : sum ≠ storedChecksum cr t.s2kCon m) : decryptSecretKeys cr t pass = .ok [] := by
  rw [decryptSecretKeys, hp, Out.ok_bind, checkAndParse_eq cr t m sum hs, decryptChecksum_eq, Out.ok_bind,
    if_pos (Ne.symm hne)]

/-- An unprotected secret key in which any single octet of the key material was altered is rejected. -/
theorem C22_single_octet (cr : Crypto) (t : Tag5) (hc : t.s2kCon = 0) (pass a b sum : Bytes) (x y : UInt8) (hxy : x ≠ y)
    (hsum : sum = storedChecksum cr 0 (a ++ [x] ++ b)) (hsec : t.secret = a ++ [y] ++ b ++ sum) :
    decryptSecretKeys cr t pass = .ok [] := by
  have hsl : sum.length = 2 := by rw [hsum, storedChecksum, if_neg (by decide), be_length]
  refine C22_rejects cr t pass (a ++ [y] ++ b) sum ?_ ?_ ?_
  · rw [plainSecret, if_neg (by simpa using hc), hsec]
  · rw [hsl, hc]; rfl
  · rw [hsum, hc, storedChecksum, storedChecksum, if_neg (by decide), if_neg (by decide)]
    intro h
    have := be_inj (by omega) (by omega) h
    simp only [List.map_append, List.sum_append, List.map_cons, List.map_nil, List.sum_cons, List.sum_nil] at this
    have h1 := x.toNat_lt
    have h2 := y.toNat_lt
    exact hxy (UInt8.toNat_inj.mp (by omega))

example : (5 : UInt8) ≠ 6 ∧ ({ c12Key with s2kCon := 0, secret := [0, 3] ++ [6] ++ [] ++ [0, 8] } : Tag5).s2kCon = 0 ∧
    ([0, 8] : Bytes) = storedChecksum demoCrypto 0 ([0, 3] ++ [5] ++ []) := by
  refine ⟨by decide, rfl, by decide +kernel⟩

/-- Secret octets too short to hold a checksum make decryption throw. -/
theorem C22_short (cr : Crypto) (t : Tag5) (pass p : Bytes) (hp : plainSecret cr t pass = .ok p)
    (hl : p.length < if t.s2kCon = 254 then 20 else 2) : decryptSecretKeys cr t pass = .throw := by
  have hl' : p.length < t.hashSize := hl
  have hh : t.hashSize ≤ 20 := by rw [hashSize]; split <;> omega
  rw [decryptSecretKeys, hp, Out.ok_bind, checkAndParse_short cr t p hl' (by omega)]

end OpenPGP
