import Verif.Lemmas.Crc24

/-!
# C03: the armor checksum is CRC-24 and catches transmission errors
-/
namespace OpenPGP
open Polynomial Spec

theorem crc24_eq (s : Bytes) : crc24 s = s.foldl crcByte 0xB704CE#32 := by
  unfold crc24
  exact low24_mask _ (crcFold_spec s _ low24_init).1

theorem crc24_low24 (s : Bytes) : low24 (crc24 s) := by
  rw [crc24_eq]; exact (crcFold_spec s _ low24_init).1

theorem regPoly_init : regPoly 0xB704CE#32 = bitPoly crcInitBits := by
  rw [← bitPoly_bits24 _ low24_init]
  congr 1

/-- The checksum fits in 24 bits. -/
theorem C03_crc_range (s : Bytes) : (crc24 s).toNat < 2 ^ 24 := by
  unfold crc24
  rw [BitVec.toNat_and]
  exact lt_of_le_of_lt Nat.and_le_right (by decide)

/-- The 24 result bits, read as a polynomial, are the remainder prescribed by RFC 4880 section 6.1. -/
theorem C03_crc_remainder (s : Bytes) :
    bitPoly ((List.range 24).map fun i => (crc24 s).toNat.testBit (23 - i)) = crcRemainder s := by
  have h := crcFold_spec s _ low24_init
  have hb : bitPoly (bits24 (crc24 s)) = crcRemainder s := by
    unfold crcRemainder
    rw [eq_comm]
    have hφ : φ (bitPoly crcInitBits * X ^ (8 * s.length) + bitPoly (bitsOf s) * X ^ 24)
        = φ (bitPoly (bits24 (crc24 s))) := by
      rw [bitPoly_bits24 _ (crc24_low24 s), crc24_eq, h.2, regPoly_init]
      simp only [map_add, map_mul, map_pow]
    obtain ⟨q, hq⟩ := φ_eq.mp hφ
    have he : bitPoly (bits24 (crc24 s)) + crcGen * q
        = bitPoly crcInitBits * X ^ (8 * s.length) + bitPoly (bitsOf s) * X ^ 24 := by
      rw [← hq]; ring
    refine (div_modByMonic_unique q _ crcGen_monic ⟨he, ?_⟩).2
    rw [crcGen_degree]
    exact bitPoly_degree _
  exact hb

/-- Equal checksums mean that the difference of the messages is a multiple of the generator. -/
theorem crc24_eq_iff (s t : Bytes) (hl : s.length = t.length) :
    crc24 s = crc24 t ↔ crcGen ∣ bitPoly (bitsOf s) - bitPoly (bitsOf t) := by
  have hs := crcFold_spec s _ low24_init
  have ht := crcFold_spec t _ low24_init
  constructor
  · intro h
    rw [crc24_eq, crc24_eq] at h
    have e := hs.2
    rw [h, ht.2, hl] at e
    have e2 : φ (bitPoly (bitsOf s) * X ^ 24) = φ (bitPoly (bitsOf t) * X ^ 24) := by
      simp only [map_mul, map_pow]
      exact (add_left_cancel e).symm
    have e3 := φ_eq.mp e2
    rw [← sub_mul] at e3
    exact (crcGen_coprime_X 24).dvd_of_dvd_mul_right e3
  · intro h
    have hr : crcRemainder s = crcRemainder t := by
      unfold crcRemainder
      rw [hl]
      obtain ⟨q, hq⟩ := h
      have : bitPoly (bitsOf s) = bitPoly (bitsOf t) + crcGen * q := by rw [← hq]; ring
      rw [this, show bitPoly crcInitBits * X ^ (8 * t.length) + (bitPoly (bitsOf t) + crcGen * q) * X ^ 24
        = (bitPoly crcInitBits * X ^ (8 * t.length) + bitPoly (bitsOf t) * X ^ 24) + crcGen * (q * X ^ 24) by ring]
      rw [add_modByMonic, (modByMonic_eq_zero_iff_dvd crcGen_monic).mpr (Dvd.intro _ rfl), add_zero]
    rw [← C03_crc_remainder, ← C03_crc_remainder] at hr
    have hb : bits24 (crc24 s) = bits24 (crc24 t) := bitPoly_inj _ _ (by simp [bits24]) hr
    apply BitVec.eq_of_getLsbD_eq
    intro i hi
    by_cases h24 : i < 24
    · have := congrArg (fun l : List Bool => l[23 - i]?) hb
      simp only [bits24, List.getElem?_map] at this
      rw [List.getElem?_range (by omega)] at this
      simpa [show 23 - (23 - i) = i by omega] using this
    · rw [crc24_low24 s i (by omega), crc24_low24 t i (by omega)]

/-- Every error burst of at most 24 bits changes the checksum. -/
theorem C03_crc_detects_bursts (s t : Bytes) (pre mid mid' post : List Bool)
    (hs : bitsOf s = pre ++ mid ++ post) (ht : bitsOf t = pre ++ mid' ++ post)
    (hlen : mid.length = mid'.length) (h24 : mid.length ≤ 24) (hne : mid ≠ mid') :
    crc24 s ≠ crc24 t := by
  intro h
  have hl : s.length = t.length := by
    have h1 := bitsOf_length s
    have h2 := bitsOf_length t
    rw [hs] at h1; rw [ht] at h2
    simp only [List.length_append] at h1 h2
    omega
  have hd := (crc24_eq_iff s t hl).mp h
  rw [hs, ht] at hd
  simp only [bitPoly_append] at hd
  rw [hlen] at hd
  rw [show (bitPoly pre * X ^ mid'.length + bitPoly mid) * X ^ post.length + bitPoly post
      - ((bitPoly pre * X ^ mid'.length + bitPoly mid') * X ^ post.length + bitPoly post)
      = (bitPoly mid - bitPoly mid') * X ^ post.length by ring] at hd
  have hd2 := (crcGen_coprime_X post.length).dvd_of_dvd_mul_right hd
  have hdeg : (bitPoly mid - bitPoly mid').degree < crcGen.degree := by
    rw [crcGen_degree]
    refine lt_of_le_of_lt (degree_sub_le _ _) (max_lt ?_ ?_)
    · exact lt_of_lt_of_le (bitPoly_degree _) (by exact_mod_cast h24)
    · exact lt_of_lt_of_le (bitPoly_degree _) (by exact_mod_cast (hlen ▸ h24))
  have hz := eq_zero_of_dvd_of_degree_lt hd2 hdeg
  exact hne (bitPoly_inj _ _ hlen (sub_eq_zero.mp hz))

/-- The check is exact: same-length strings share a checksum only if the generator divides the difference. -/
theorem C03_crc_collision_iff (s t : Bytes) (hl : s.length = t.length) :
    crc24 s = crc24 t ↔ crcGen ∣ bitPoly (bitsOf s) - bitPoly (bitsOf t) := crc24_eq_iff s t hl

/-- The standard check value of CRC-24/OPENPGP on "123456789". -/
example : (crc24 [0x31,0x32,0x33,0x34,0x35,0x36,0x37,0x38,0x39]).toNat = 0x21CF02 := by decide +kernel

/-- A concrete burst: the octets differ in all bits of a 24-bit window. -/
example : ∃ pre mid mid' post : List Bool,
    bitsOf [1, 0x00, 0x00, 0x00, 9] = pre ++ mid ++ post ∧
    bitsOf [1, 0xff, 0xff, 0xff, 9] = pre ++ mid' ++ post ∧
    mid.length = mid'.length ∧ mid.length ≤ 24 ∧ mid ≠ mid' :=
  ⟨bitsOf [1], bitsOf [0,0,0], bitsOf [0xff,0xff,0xff], bitsOf [9], by decide⟩

end OpenPGP
