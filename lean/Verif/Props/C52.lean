import Verif.Lemmas.AesStd
import Verif.Lemmas.IdeaStd
import Verif.Lemmas.DesStd
import Verif.Lemmas.CamelliaStd
import Verif.Lemmas.TwofishRounds
import Verif.Lemmas.BlowfishStd
import Verif.Lemmas.CastStd
import Verif.Spec.SymCipher
import Verif.Props.C51

/-!
# C52: the block ciphers are the standard ones

The standards are written down in `Verif.Spec` from their own documents, not from the code.  The S-boxes of CAST-128 have no
definition other than their tables: `Std.Cast128` takes them as a parameter and the theorems below use the code's tables.
-/
namespace OpenPGP

/-- With this key the class makes an object that encrypts blocks as `E` does. -/
def SymCipher.Computes {S : Type} (c : SymCipher S) (key : Bytes) (E : Bytes → Bytes → Bytes) : Prop :=
  ∃ o, c.make key = .ok o ∧ ∀ b : Bytes, 8 * b.length = c.blocksize → (c.encrypt o b).2 = .ok (E key b)

/-- AES (FIPS 197), all three key sizes. -/
theorem C52_aes (key : Bytes) (h : key.length = 16 ∨ key.length = 24 ∨ key.length = 32) : aes.Computes key Std.Aes.encrypt := by
  obtain ⟨o, ho, he⟩ := aes_std key h
  exact ⟨o, ho, fun b hb => he b (by simp only [aes] at hb; omega)⟩

/-- DES (FIPS 46-3), encryption and decryption. -/
theorem C52_des (key : Bytes) (h : key.length = 8) : des.Computes key Std.Des.encrypt ∧
    ∃ o, des.make key = .ok o ∧ ∀ b : Bytes, b.length = 8 → (des.decrypt o b).2 = .ok (Std.Des.decrypt key b) := by
  obtain ⟨o, ho, he⟩ := des_std key h
  exact ⟨⟨o, ho, fun b hb => (he b (by simp only [des] at hb; omega)).1⟩, o, ho, fun b hb => (he b hb).2⟩

/-- TripleDES in the EDE mode (ANSI X9.52), with three keys; decryption is another matter (`C39_tdes_fails`). -/
theorem C52_tdes (key : Bytes) (h : key.length = 24) : tdes.Computes key Std.Des.tripleEncrypt := by
  obtain ⟨o, ho, he⟩ := tdes_std key (by omega)
  exact ⟨o, ho, fun b hb => he b (by simp only [tdes] at hb; omega)⟩

/-- IDEA. -/
theorem C52_idea (key : Bytes) (h : key.length = 16) : idea.Computes key Std.Idea.encrypt := by
  obtain ⟨o, ho, he⟩ := idea_std key h
  exact ⟨o, ho, fun b hb => he b (by simp only [idea] at hb; omega)⟩

/-- Camellia (RFC 3713), all three key sizes. -/
theorem C52_camellia (key : Bytes) (h : key.length = 16 ∨ key.length = 24 ∨ key.length = 32) :
    camellia.Computes key Std.Camellia.encrypt := by
  obtain ⟨o, ho, he⟩ := camellia_std key h
  exact ⟨o, ho, fun b hb => he b (by simp only [camellia] at hb; omega)⟩

/-- Twofish, all three key sizes. -/
theorem C52_twofish (key : Bytes) (h : key.length = 16 ∨ key.length = 24 ∨ key.length = 32) :
    twofish.Computes key Std.Twofish.encrypt := by
  obtain ⟨o, ho, he⟩ := twofish_std key h
  exact ⟨o, ho, fun b hb => he b (by simp only [twofish] at hb; omega)⟩

/-- Blowfish, for every key size the cipher has; the initial tables are the digits of `π`. -/
theorem C52_blowfish (key : Bytes) (h4 : 4 ≤ key.length) (h56 : key.length ≤ 56) :
    blowfish.Computes key Std.Blowfish.encrypt := by
  obtain ⟨o, ho, he⟩ := blowfish_std key h4 h56
  exact ⟨o, ho, fun b hb => he b (by simp only [blowfish] at hb; omega)⟩

/-- CAST-128 (RFC 2144), for every key size the cipher has. -/
theorem C52_cast128 (key : Bytes) (h : key.length ≤ 16) : cast128.Computes key (Std.Cast128.encrypt castSBoxes) := by
  obtain ⟨o, ho, he⟩ := cast128_std key h
  exact ⟨o, ho, fun b hb => he b (by simp only [cast128] at hb; omega)⟩

theorem computes_build {S : Type} {c : SymCipher S} {key : Bytes} {E : Bytes → Bytes → Bytes} (h : c.Computes key E) (n : Nat)
    (hn : c.blocksize = 8 * n) : ∃ k, c.build key = .ok k ∧ k.bs = n ∧ ∀ b : Bytes, b.length = n → k.enc b = E key b := by
  obtain ⟨o, ho, he⟩ := h
  refine ⟨c.asCipher o, ?_, ?_, ?_⟩
  · simp only [SymCipher.build, ho, Out.ok_bind]
    rfl
  · simp only [SymCipher.asCipher, hn]
    omega
  · intro b hb
    simp only [SymCipher.asCipher, he b (by omega)]

theorem setup_computes {sym : UInt8} {S : Type} {c : SymCipher S} (hs : symClass sym = some ⟨S, c⟩) {key : Bytes}
    {E : Bytes → Bytes → Bytes} (h : c.Computes key E) (n : Nat) (hn : c.blocksize = 8 * n) :
    ∃ k, builtinSetup sym key = .ok k ∧ k.bs = n ∧ ∀ b : Bytes, b.length = n → k.enc b = E key b := by
  have e : builtinSetup sym key = c.build key := by
    rw [builtinSetup, hs]
  rw [e]
  exact computes_build h n hn

theorem ite_some {α : Type} {p : Prop} [Decidable p] {a c : α} {r : Option α} (h : (if p then some a else r) = some c) :
    (p ∧ c = a) ∨ (¬ p ∧ r = some c) := by
  by_cases hp : p
  · rw [if_pos hp] at h
    exact .inl ⟨hp, (Option.some.inj h).symm⟩
  · rw [if_neg hp] at h
    exact .inr ⟨hp, h⟩

theorem ite_none {α : Type} {p : Prop} [Decidable p] {a : α} {r : Option α} (h : (if p then some a else r) = none) :
    ¬ p ∧ r = none := by
  by_cases hp : p
  · rw [if_pos hp] at h
    cases h
  · rw [if_neg hp] at h
    exact ⟨hp, h⟩

theorem cipherOf_cases {S : Std.Cast128.SBoxes} {sym : UInt8} {c : Std.BlockCipher} (hc : Std.cipherOf S sym = some c) :
    (sym = 1 ∧ c = ⟨16, 8, Std.Idea.encrypt⟩) ∨ (sym = 2 ∧ c = ⟨24, 8, Std.Des.tripleEncrypt⟩) ∨
    (sym = 3 ∧ c = ⟨16, 8, Std.Cast128.encrypt S⟩) ∨ (sym = 4 ∧ c = ⟨16, 8, Std.Blowfish.encrypt⟩) ∨
    (sym = 7 ∧ c = ⟨16, 16, Std.Aes.encrypt⟩) ∨ (sym = 8 ∧ c = ⟨24, 16, Std.Aes.encrypt⟩) ∨
    (sym = 9 ∧ c = ⟨32, 16, Std.Aes.encrypt⟩) ∨ (sym = 10 ∧ c = ⟨32, 16, Std.Twofish.encrypt⟩) ∨
    (sym = 11 ∧ c = ⟨16, 16, Std.Camellia.encrypt⟩) ∨ (sym = 12 ∧ c = ⟨24, 16, Std.Camellia.encrypt⟩) ∨
    (sym = 13 ∧ c = ⟨32, 16, Std.Camellia.encrypt⟩) := by
  rw [Std.cipherOf] at hc
  rcases ite_some hc with h | ⟨_, hc⟩
  · exact .inl h
  rcases ite_some hc with h | ⟨_, hc⟩
  · exact .inr (.inl h)
  rcases ite_some hc with h | ⟨_, hc⟩
  · exact .inr (.inr (.inl h))
  rcases ite_some hc with h | ⟨_, hc⟩
  · exact .inr (.inr (.inr (.inl h)))
  rcases ite_some hc with h | ⟨_, hc⟩
  · exact .inr (.inr (.inr (.inr (.inl h))))
  rcases ite_some hc with h | ⟨_, hc⟩
  · exact .inr (.inr (.inr (.inr (.inr (.inl h)))))
  rcases ite_some hc with h | ⟨_, hc⟩
  · exact .inr (.inr (.inr (.inr (.inr (.inr (.inl h))))))
  rcases ite_some hc with h | ⟨_, hc⟩
  · exact .inr (.inr (.inr (.inr (.inr (.inr (.inr (.inl h)))))))
  rcases ite_some hc with h | ⟨_, hc⟩
  · exact .inr (.inr (.inr (.inr (.inr (.inr (.inr (.inr (.inl h))))))))
  rcases ite_some hc with h | ⟨_, hc⟩
  · exact .inr (.inr (.inr (.inr (.inr (.inr (.inr (.inr (.inr (.inl h)))))))))
  rcases ite_some hc with h | ⟨_, hc⟩
  · exact .inr (.inr (.inr (.inr (.inr (.inr (.inr (.inr (.inr (.inr (h))))))))))
  · cases hc

theorem cast_setup (key : Bytes) (h : key.length = 16) : ∃ k, builtinSetup 3 key = .ok k ∧ k.bs = 8 ∧
    ∀ b : Bytes, b.length = 8 → k.enc b = Std.Cast128.encrypt castSBoxes key b :=
  setup_computes (sym := 3) rfl (C52_cast128 key (by omega)) 8 rfl

/-- `Sym::setup` with a key of the right size makes the cipher of that number. -/
theorem C52_standard (sym : UInt8) (c : Std.BlockCipher) (hc : Std.cipherOf castSBoxes sym = some c) (key : Bytes)
    (hk : key.length = c.keyOctets) : ∃ k, builtinSetup sym key = .ok k ∧ k.bs = c.blockOctets ∧
      ∀ b : Bytes, b.length = c.blockOctets → k.enc b = c.encrypt key b := by
  rcases cipherOf_cases hc with h | h | h | h | h | h | h | h | h | h | h
  · rw [h.2] at hk ⊢
    rw [h.1]
    exact setup_computes (sym := 1) rfl (C52_idea key hk) 8 rfl
  · rw [h.2] at hk ⊢
    rw [h.1]
    exact setup_computes (sym := 2) rfl (C52_tdes key hk) 8 rfl
  · rw [h.2] at hk ⊢
    rw [h.1]
    exact cast_setup key hk
  · rw [h.2] at hk ⊢
    rw [h.1]
    exact setup_computes (sym := 4) rfl (C52_blowfish key (by rw [hk]; simp) (by rw [hk]; simp)) 8 rfl
  · rw [h.2] at hk ⊢
    rw [h.1]
    exact setup_computes (sym := 7) rfl (C52_aes key (.inl hk)) 16 rfl
  · rw [h.2] at hk ⊢
    rw [h.1]
    exact setup_computes (sym := 8) rfl (C52_aes key (.inr (.inl hk))) 16 rfl
  · rw [h.2] at hk ⊢
    rw [h.1]
    exact setup_computes (sym := 9) rfl (C52_aes key (.inr (.inr hk))) 16 rfl
  · rw [h.2] at hk ⊢
    rw [h.1]
    exact setup_computes (sym := 10) rfl (C52_twofish key (.inr (.inr hk))) 16 rfl
  · rw [h.2] at hk ⊢
    rw [h.1]
    exact setup_computes (sym := 11) rfl (C52_camellia key (.inl hk)) 16 rfl
  · rw [h.2] at hk ⊢
    rw [h.1]
    exact setup_computes (sym := 12) rfl (C52_camellia key (.inr (.inl hk))) 16 rfl
  · rw [h.2] at hk ⊢
    rw [h.1]
    exact setup_computes (sym := 13) rfl (C52_camellia key (.inr (.inr hk))) 16 rfl

/-- The numbers that name a cipher are the ones with a key length in the library's table, and the key and block lengths are those
of the tables. -/
theorem C52_numbers (sym : UInt8) :
    (keyLen sym = (Std.cipherOf castSBoxes sym).map (·.keyOctets)) ∧
    ((Std.cipherOf castSBoxes sym).isSome → blockLen sym = (Std.cipherOf castSBoxes sym).map (·.blockOctets)) ∧
    (Std.cipherOf castSBoxes sym = none → ∀ key, builtinSetup sym key = .throw) := by
  have none_case : Std.cipherOf castSBoxes sym = none → keyLen sym = none ∧ ∀ key, builtinSetup sym key = .throw := by
    intro h
    rw [Std.cipherOf] at h
    obtain ⟨h1, h⟩ := ite_none h
    obtain ⟨h2, h⟩ := ite_none h
    obtain ⟨h3, h⟩ := ite_none h
    obtain ⟨h4, h⟩ := ite_none h
    obtain ⟨h7, h⟩ := ite_none h
    obtain ⟨h8, h⟩ := ite_none h
    obtain ⟨h9, h⟩ := ite_none h
    obtain ⟨h10, h⟩ := ite_none h
    obtain ⟨h11, h⟩ := ite_none h
    obtain ⟨h12, h⟩ := ite_none h
    obtain ⟨h13, h⟩ := ite_none h
    refine ⟨?_, fun key => ?_⟩
    · simp [keyLen, h1, h2, h3, h4, h7, h8, h9, h10, h11, h12, h13]
    · simp [builtinSetup, symClass, h1, h2, h3, h4, h7, h8, h9, h10, h11, h12, h13]
  cases hc : Std.cipherOf castSBoxes sym with
  | none => exact ⟨(none_case hc).1, fun h => (by cases h), fun _ => (none_case hc).2⟩
  | some c =>
    refine ⟨?_, fun _ => ?_, fun h => (by cases h)⟩ <;> rw [Option.map_some] <;>
      rcases cipherOf_cases hc with h | h | h | h | h | h | h | h | h | h | h <;> rw [h.2, h.1] <;> rfl

/-- Where a class computes the standard cipher and inverts, decryption inverts the standard cipher. -/
theorem C52_decrypt {S : Type} (c : SymCipher S) (key : Bytes) (E : Bytes → Bytes → Bytes) (h : c.Computes key E)
    (hi : c.InvertsWith key) : ∃ o, c.make key = .ok o ∧ ∀ b : Bytes, 8 * b.length = c.blocksize →
      (c.decrypt o (E key b)).2 = .ok b := by
  obtain ⟨o, ho, he⟩ := h
  obtain ⟨o', ho', hd, _⟩ := hi
  obtain rfl := Out.ok.inj (ho.symm.trans ho')
  refine ⟨o, ho, fun b hb => ?_⟩
  obtain ⟨⟨e, h1, _, _, h2⟩, _⟩ := hd b hb
  obtain rfl := Out.ok.inj ((he b hb).symm.trans h1)
  exact h2

/-! ## The vectors in the standards -/

/-- What a new object makes of a block. -/
def SymCipher.once {S : Type} (c : SymCipher S) (key block : Bytes) : Out Bytes := do
  let o ← c.make key
  (c.encrypt o block).2

theorem SymCipher.Computes.vector {S : Type} {c : SymCipher S} {key : Bytes} {E : Bytes → Bytes → Bytes} (h : c.Computes key E)
    {b e : Bytes} (hb : 8 * b.length = c.blocksize) (hv : c.once key b = .ok e) : E key b = e := by
  obtain ⟨o, ho, he⟩ := h
  rw [SymCipher.once, ho, Out.ok_bind, he b hb] at hv
  exact Out.ok.inj hv

/-- FIPS 197, C.1. -/
example : Std.Aes.encrypt [0x00, 0x01, 0x02, 0x03, 0x04, 0x05, 0x06, 0x07, 0x08, 0x09, 0x0a, 0x0b, 0x0c, 0x0d, 0x0e, 0x0f]
    [0x00, 0x11, 0x22, 0x33, 0x44, 0x55, 0x66, 0x77, 0x88, 0x99, 0xaa, 0xbb, 0xcc, 0xdd, 0xee, 0xff] =
    [0x69, 0xc4, 0xe0, 0xd8, 0x6a, 0x7b, 0x04, 0x30, 0xd8, 0xcd, 0xb7, 0x80, 0x70, 0xb4, 0xc5, 0x5a] :=
  (C52_aes _ (.inl rfl)).vector rfl (by decide +kernel)

/-- DES. -/
example : Std.Des.encrypt [0x13, 0x34, 0x57, 0x79, 0x9B, 0xBC, 0xDF, 0xF1] [0x01, 0x23, 0x45, 0x67, 0x89, 0xAB, 0xCD, 0xEF] =
    [0x85, 0xE8, 0x13, 0x54, 0x0F, 0x0A, 0xB4, 0x05] :=
  (C52_des _ rfl).1.vector rfl (by decide +kernel)

/-- NIST SP 800-67, appendix B. -/
example : Std.Des.tripleEncrypt [0x01, 0x23, 0x45, 0x67, 0x89, 0xAB, 0xCD, 0xEF, 0x23, 0x45, 0x67, 0x89, 0xAB, 0xCD, 0xEF, 0x01,
      0x45, 0x67, 0x89, 0xAB, 0xCD, 0xEF, 0x01, 0x23] [0x54, 0x68, 0x65, 0x20, 0x71, 0x75, 0x66, 0x63] =
    [0xA8, 0x26, 0xFD, 0x8C, 0xE5, 0x3B, 0x85, 0x5F] :=
  (C52_tdes _ rfl).vector rfl (by decide +kernel)

/-- IDEA. -/
example : Std.Idea.encrypt [0x00, 0x01, 0x00, 0x02, 0x00, 0x03, 0x00, 0x04, 0x00, 0x05, 0x00, 0x06, 0x00, 0x07, 0x00, 0x08]
    [0x00, 0x00, 0x00, 0x01, 0x00, 0x02, 0x00, 0x03] = [0x11, 0xFB, 0xED, 0x2B, 0x01, 0x98, 0x6D, 0xE5] :=
  (C52_idea _ rfl).vector rfl (by decide +kernel)

/-- RFC 3713, appendix A. -/
example : Std.Camellia.encrypt [0x01, 0x23, 0x45, 0x67, 0x89, 0xab, 0xcd, 0xef, 0xfe, 0xdc, 0xba, 0x98, 0x76, 0x54, 0x32, 0x10]
    [0x01, 0x23, 0x45, 0x67, 0x89, 0xab, 0xcd, 0xef, 0xfe, 0xdc, 0xba, 0x98, 0x76, 0x54, 0x32, 0x10] =
    [0x67, 0x67, 0x31, 0x38, 0x54, 0x96, 0x69, 0x73, 0x08, 0x57, 0x06, 0x56, 0x48, 0xea, 0xbe, 0x43] :=
  (C52_camellia _ (.inl rfl)).vector rfl (by decide +kernel)

/-- Twofish, the 256-bit example. -/
example : Std.Twofish.encrypt [0x01, 0x23, 0x45, 0x67, 0x89, 0xAB, 0xCD, 0xEF, 0xFE, 0xDC, 0xBA, 0x98, 0x76, 0x54, 0x32, 0x10,
      0x00, 0x11, 0x22, 0x33, 0x44, 0x55, 0x66, 0x77, 0x88, 0x99, 0xAA, 0xBB, 0xCC, 0xDD, 0xEE, 0xFF] (List.replicate 16 0) =
    [0x37, 0x52, 0x7B, 0xE0, 0x05, 0x23, 0x34, 0xB8, 0x9F, 0x0C, 0xFC, 0xCA, 0xE8, 0x7C, 0xFA, 0x20] :=
  (C52_twofish _ (.inr (.inr rfl))).vector rfl (by decide +kernel)

/-- RFC 2144, B.1: sixteen rounds, and twelve for a short key. -/
example : Std.Cast128.encrypt castSBoxes [0x01, 0x23, 0x45, 0x67, 0x12, 0x34, 0x56, 0x78, 0x23, 0x45, 0x67, 0x89, 0x34, 0x56, 0x78, 0x9A]
    [0x01, 0x23, 0x45, 0x67, 0x89, 0xAB, 0xCD, 0xEF] = [0x23, 0x8B, 0x4F, 0xE5, 0x84, 0x7E, 0x44, 0xB2] :=
  (C52_cast128 _ (by decide)).vector rfl (by decide +kernel)
example : Std.Cast128.encrypt castSBoxes [0x01, 0x23, 0x45, 0x67, 0x12]
    [0x01, 0x23, 0x45, 0x67, 0x89, 0xAB, 0xCD, 0xEF] = [0x7A, 0xC8, 0x16, 0xD1, 0x6E, 0x9B, 0x30, 0x2E] :=
  (C52_cast128 _ (by decide)).vector rfl (by decide +kernel)

end OpenPGP
