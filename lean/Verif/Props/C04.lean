import Verif.Lemmas.Mpi

/-!
# C04: MPI encoding is lossless and self-delimiting

The full property (for every integer) is false of the code: the reader keeps the bit count in a
`uint16_t` and rounds it up to a multiple of 8, so counts of 65529..65535 wrap to 0
(`C04_mpi_large_fails`).  RFC 4880 allows bit counts up to 65535.
-/
namespace OpenPGP

/-- Writing never throws, and the written form is a two-octet bit count followed by the big-endian
value in the fewest octets (at least one). -/
theorem C04_mpi_format (a : Nat) : ∃ count body : Bytes,
    writeMPI a = .ok (count ++ body) ∧ count.length = 2 ∧ num body = a ∧
    (a < 2 ^ 65535 → num count = Nat.log2 a + 1) ∧
    (a < 256 → body.length = 1) ∧ (256 ≤ a → 256 ^ (body.length - 1) ≤ a) := by
  refine ⟨be 2 (bitsize a), mpiRaw a, writeMPI_eq a, by simp, num_mpiRaw a, ?_, ?_, ?_⟩
  · intro h
    rw [num_be, bitsize, Nat.mod_eq_of_lt]
    by_cases h0 : a = 0
    · subst h0; decide
    · have := (Nat.log2_lt h0).mpr h
      omega
  · intro h
    rw [mpiRaw_length]
    by_cases h0 : a = 0
    · subst h0; decide
    · have := (Nat.log2_lt (n := a) (k := 8) h0).mpr (by simpa using h)
      omega
  · intro h
    rw [mpiRaw_length, Nat.add_sub_cancel, show (256 : Nat) = 2 ^ 8 by rfl, ← Nat.pow_mul]
    exact (Nat.le_log2 (by omega)).mp (by omega)

/-- Reading a written integer of at most 65528 bits, anywhere in the input, returns it and stops exactly
behind it.  Missing from the full property: integers of 65529 bits and more. -/
theorem C04_mpi_roundtrip_partial (a : Nat) (pre post enc : Bytes)
    (ha : a < 2 ^ 65528) (hw : writeMPI a = .ok enc) :
    readMPI (pre ++ enc ++ post) pre.length = .ok (a, pre.length + enc.length) := by
  rw [writeMPI_eq] at hw
  cases hw
  apply readMPI_at (rest := post)
  · rw [List.append_assoc, List.drop_left]
  · unfold bitsize
    by_cases h0 : a = 0
    · subst h0; decide
    · have := (Nat.log2_lt h0).mpr ha
      omega

/-- Self-delimiting: no written integer is a proper prefix of another one. -/
theorem C04_mpi_prefix_free (a b : Nat) (x y ea eb : Bytes) (ha : a < 2 ^ 65528) (hb : b < 2 ^ 65528)
    (hea : writeMPI a = .ok ea) (heb : writeMPI b = .ok eb) (h : ea ++ x = eb ++ y) : a = b ∧ x = y := by
  have h1 := C04_mpi_roundtrip_partial a [] x ea ha hea
  have h2 := C04_mpi_roundtrip_partial b [] y eb hb heb
  simp only [List.nil_append] at h1 h2
  rw [h, h2] at h1
  have hab : b = a := by
    have := Out.ok.inj h1
    exact congrArg Prod.fst this
  subst hab
  rw [hea] at heb
  cases heb
  exact ⟨rfl, List.append_cancel_left h⟩

/-- Integers of 65529 to 65535 bits, which RFC 4880 allows, are written but cannot be read back. -/
theorem C04_mpi_large_fails (a : Nat) (pre post enc : Bytes) (hlo : 2 ^ 65528 ≤ a) (hhi : a < 2 ^ 65535)
    (hw : writeMPI a = .ok enc) : readMPI (pre ++ enc ++ post) pre.length = .throw := by
  rw [writeMPI_eq] at hw
  cases hw
  have h0 : a ≠ 0 := by intro h; subst h; exact absurd hlo (by simp)
  have l1 : 65528 ≤ a.log2 := (Nat.le_log2 h0).mpr hlo
  have l2 : a.log2 < 65535 := (Nat.log2_lt h0).mpr hhi
  have hd : (pre ++ mpiOctets a ++ post).drop pre.length
      = UInt8.ofNat (bitsize a / 256) :: UInt8.ofNat (bitsize a) :: (mpiRaw a ++ post) := by
    rw [List.append_assoc, List.drop_left, mpiOctets, be_two]; simp
  have h1 := drop_succ_of hd
  have h2 := drop_succ_of h1
  unfold readMPI
  rw [charAt_drop hd, Out.ok_bind, charAt_drop h1, Out.ok_bind]
  have hs : (UInt8.ofNat (bitsize a / 256)).toNat * 256 + (UInt8.ofNat (bitsize a)).toNat = bitsize a := by
    simp only [UInt8.toNat_ofNat']; unfold bitsize; omega
  simp only [hs]
  have hr : roundUp8 (bitsize a) / 8 = 0 := by unfold roundUp8 bitsize; omega
  have := le_of_drop_cons h1
  rw [hr, substr_drop (m := []) (n := 0) (rest := mpiRaw a ++ post) (by omega) h2 rfl, Out.ok_bind, rawtompi_eq]
  rfl

/-- An integer written with a zero bit count (another implementation's zero) is refused. -/
theorem C04_mpi_zero_count (pre post : Bytes) :
    readMPI (pre ++ [0, 0] ++ post) pre.length = .throw := by
  have hd : (pre ++ [0, 0] ++ post).drop pre.length = 0 :: 0 :: post := by
    rw [List.append_assoc, List.drop_left]; rfl
  have h1 := drop_succ_of hd
  have h2 := drop_succ_of h1
  have := le_of_drop_cons h1
  unfold readMPI
  rw [charAt_drop hd, Out.ok_bind, charAt_drop h1, Out.ok_bind]
  simp only
  rw [show roundUp8 ((0 : UInt8).toNat * 256 + (0 : UInt8).toNat) / 8 = 0 by decide,
    substr_drop (m := []) (n := 0) (rest := post) (by omega) h2 rfl, Out.ok_bind, rawtompi_eq]
  rfl

/-- The RFC 4880 example: 511 is `00 09 01 FF`. -/
example : writeMPI 511 = .ok [0x00, 0x09, 0x01, 0xff] := by decide
example : writeMPI 0 = .ok [0x00, 0x01, 0x00] := by decide
example : (2 : Nat) ^ 65528 ≤ 2 ^ 65530 ∧ (2 : Nat) ^ 65530 < 2 ^ 65535 :=
  ⟨Nat.pow_le_pow_right (by omega) (by omega), Nat.pow_lt_pow_right (by omega) (by omega)⟩

end OpenPGP
