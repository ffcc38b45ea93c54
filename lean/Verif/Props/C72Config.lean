import Verif.Props.C72

/-!
# C72: sizes of keys that may be asked for in the build with `GPG_COMPATIBLE`
-/
namespace OpenPGP
open Rfc6637

theorem gpgSubkeys_size {primary : Nat} : ∀ {l : List SubkeyConfig}, gpgSubkeysValid primary l = .ok true →
    ∀ s ∈ l, gpgSubkeySize primary s.pka s.bits = true := by
  intro l
  induction l with
  | nil => intro _ s hs; cases hs
  | cons x l ih =>
    intro h s hs
    rw [gpgSubkeysValid] at h
    repeat' split at h
    all_goals try (simp at h; done)
    rename_i h2 _ _ _
    obtain ⟨short, -, h⟩ := Out.bind_eq_ok.mp h
    split at h
    · cases h
    · rcases List.mem_cons.mp hs with rfl | hs
      · simpa using h2
      · exact ih h s hs

theorem gpgValid_parts {c : KeyConfig} (h : c.gpgValid = .ok true) :
    gpgCanSign c.pka = true ∧ gpgPrimarySize c.pka c.bits = true ∧ ∀ s ∈ c.subkeys, gpgSubkeySize c.bits s.pka s.bits = true := by
  rw [KeyConfig.gpgValid] at h
  repeat' split at h
  all_goals try (simp at h; done)
  obtain ⟨good, -, h⟩ := Out.bind_eq_ok.mp h
  split at h
  · refine ⟨by simp_all, by simp_all, gpgSubkeys_size h⟩
  · cases h

/-- RSA is one of three algorithms. -/
def RsaAlg (a : UInt8) : Prop := a = 1 ∨ a = 2 ∨ a = 3

theorem isRSA_iff (a : UInt8) : isRSA a = true ↔ RsaAlg a := by
  simp [isRSA, RsaAlg, or_assoc]

theorem rsa_size {a : UInt8} {bits primary : Nat} (ha : RsaAlg a) (h : gpgPrimarySize a bits = true ∨ gpgSubkeySize primary a bits = true) :
    GpgSize bits := by
  rcases h with h | h
  · rw [gpgPrimarySize, if_pos ((isRSA_iff a).mpr ha)] at h
    simp at h
    unfold GpgSize; omega
  · rw [gpgSubkeySize, if_pos ((isRSA_iff a).mpr ha)] at h
    simp at h
    unfold GpgSize; omega

/-- The two checks of RSA sizes agree: what may be asked for is exactly what the generator makes, for primary keys and subkeys. The generator is called with half
the size. -/
theorem C72_config_rsa {c : KeyConfig} (h : c.gpgValid = .ok true) :
    (RsaAlg c.pka → GpgSize c.bits ∧ 2 * (c.bits / 2) = c.bits) ∧
    ∀ s ∈ c.subkeys, RsaAlg s.pka → GpgSize s.bits ∧ 2 * (s.bits / 2) = s.bits := by
  obtain ⟨-, h1, h2⟩ := gpgValid_parts h
  refine ⟨fun ha => ?_, fun s hs ha => ?_⟩
  · have := rsa_size (primary := 0) ha (Or.inl h1)
    exact ⟨this, by unfold GpgSize at this; omega⟩
  · have := rsa_size ha (Or.inr (h2 s hs))
    exact ⟨this, by unfold GpgSize at this; omega⟩

/-- So an RSA key that may be asked for is never refused for its size. -/
theorem C72_config_generated {c : KeyConfig} (h : c.gpgValid = .ok true) (ha : RsaAlg c.pka) {np : Nat → Nat} (hnp : ∀ a, (np a).Prime)
    (hgt : ∀ a, a < np a) {draws vals : List Nat} (hk : rsaKeygenGpg np (c.bits / 2) draws = .ok vals) :
    ∃ n e d p q u, vals = [n, e, d, p, q, u] ∧ bitsize n = c.bits ∧ n = p * q := by
  obtain ⟨h1, h2⟩ := (C72_config_rsa h).1 ha
  obtain ⟨n, e, d, p, q, u, hv, hn, -, -, -, hpq, -⟩ := C72_rsa hnp hgt (by rw [h2]; exact h1) hk
  exact ⟨n, e, d, p, q, u, hv, by rw [hn, h2], hpq⟩

/-- A subkey on an elliptic curve may be asked for with any size, … -/
theorem C72_config_size_fails (a : Alg) (sym hash sig : UInt8) (n m primary : Nat) (rest : List SubkeyConfig) :
    gpgSubkeysValid primary (⟨a.id, n, sym, hash, sig⟩ :: rest) = gpgSubkeysValid primary (⟨a.id, m, sym, hash, sig⟩ :: rest) := by
  have hs : gpgSubkeySize primary a.id n = gpgSubkeySize primary a.id m := by cases a <;> rfl
  rw [gpgSubkeysValid, gpgSubkeysValid]
  simp only [hs]

/-- … but not together with an RSA key of more than 1024 bits, … -/
theorem C72_config_mixed_fails {c : KeyConfig} (h : c.gpgValid = .ok true) (ha : RsaAlg c.pka) (s : SubkeyConfig) (hs : s ∈ c.subkeys) (a : Alg)
    (he : s.pka = a.id) : c.bits = 1024 := by
  obtain ⟨-, h1, h2⟩ := gpgValid_parts h
  have h3 := rsa_size (primary := 0) ha (Or.inl h1)
  have h4 := h2 s hs
  rw [he] at h4
  have h5 : 160 ≤ c.bits ∧ c.bits ≤ 1024 := by
    cases a <;> simp [gpgSubkeySize, Alg.id, isRSA] at h4 <;> exact h4
  unfold GpgSize at h3
  omega

/-- … and no key on an elliptic curve is ever generated. -/
theorem C72_not_generated_fails (a : Alg) (bits : Nat) (r : KeyRand) : generateKeypair r a.id (generateParams a.id bits) = .ok none := by
  have : generateParams a.id bits = [] := by cases a <;> simp [generateParams, Alg.id]
  rw [this, generateKeypair, if_pos rfl]

/-- SHA-2 with at least 256 bits. -/
def StrongHash (h : UInt8) : Prop := h = 8 ∨ h = 9 ∨ h = 10

theorem shortForDsa_strong {h : UInt8} (hh : StrongHash h) (a : UInt8) : shortForDsa a h = .ok false := by
  rw [shortForDsa]
  split
  · rcases hh with rfl | rfl | rfl <;> rfl
  · rfl

theorem hashNamed_strong {h : UInt8} (hh : StrongHash h) : hashNamed h = true := by rcases hh with rfl | rfl | rfl <;> rfl

theorem usersValid_strong (a : UInt8) : ∀ {l : List UserConfig}, (∀ u ∈ l, StrongHash u.sig) → usersValid a l = .ok true := by
  intro l
  induction l with
  | nil => intro _; rfl
  | cons u l ih =>
    intro h
    have hu := h u (by simp)
    rw [usersValid, hashNamed_strong hu, shortForDsa_strong hu]
    exact ih fun u hu => h u (by simp [hu])

theorem primarySize_iff (a : UInt8) (n : Nat) : (gpgNamed a = true ∧ gpgCanSign a = true ∧ gpgPrimarySize a n = true) ↔ PrimarySize a n := by
  by_cases h : a = 1 ∨ a = 2 ∨ a = 3 ∨ a = 16 ∨ a = 17 ∨ a = 18 ∨ a = 19 ∨ a = 22
  · rcases h with rfl | rfl | rfl | rfl | rfl | rfl | rfl | rfl <;> simp [gpgNamed, gpgCanSign, gpgPrimarySize, isRSA, PrimarySize] <;> try omega
  · push Not at h
    obtain ⟨h1, h2, h3, h4, h5, h6, h7, h8⟩ := h
    simp [gpgPrimarySize, isRSA, PrimarySize, h1, h2, h3, h5, h7, h8]

theorem subkeySize_iff (primary : Nat) (a : UInt8) (n : Nat) : (gpgNamed a = true ∧ gpgSubkeySize primary a n = true) ↔ SubkeySize primary a n := by
  by_cases h : a = 1 ∨ a = 2 ∨ a = 3 ∨ a = 16 ∨ a = 17 ∨ a = 18 ∨ a = 19 ∨ a = 22
  · rcases h with rfl | rfl | rfl | rfl | rfl | rfl | rfl | rfl <;> simp [gpgNamed, gpgSubkeySize, isRSA, SubkeySize] <;> try omega
  · push Not at h
    obtain ⟨h1, h2, h3, h4, h5, h6, h7, h8⟩ := h
    simp [gpgSubkeySize, isRSA, SubkeySize, h1, h2, h3, h4, h5, h6, h7, h8]

theorem subkeysValid_strong (primary : Nat) : ∀ {l : List SubkeyConfig}, (∀ s ∈ l, s.sym ≤ 13 ∧ 1 ≤ s.hash ∧ s.hash ≤ 11 ∧ StrongHash s.sig) →
    (gpgSubkeysValid primary l = .ok true ↔ ∀ s ∈ l, SubkeySize primary s.pka s.bits) := by
  intro l
  induction l with
  | nil => simp [gpgSubkeysValid]
  | cons s l ih =>
    intro h
    obtain ⟨h1, h2, h3, h4⟩ := h s (by simp)
    rw [gpgSubkeysValid, hashNamed_strong h4, shortForDsa_strong h4, show symNamed s.sym = true by simp [symNamed, h1],
      show hashNamed s.hash = true by simp [hashNamed, h2, h3]]
    simp only [Out.ok_bind, List.mem_cons, forall_eq_or_imp]
    rw [← subkeySize_iff, ← ih fun s hs => h s (by simp [hs])]
    cases gpgNamed s.pka <;> cases gpgSubkeySize primary s.pka s.bits <;> simp

/-- With ciphers and hashes of RFC 4880 and signatures over SHA-2 of at least 256 bits, what may be asked for is a primary key that can sign, of a size for its
algorithm, with a user, and subkeys of sizes for theirs; on curves it is the size of the primary key that counts. -/
theorem C72_config_iff (c : KeyConfig) (hc : c.sym ≤ 13 ∧ 1 ≤ c.hash ∧ c.hash ≤ 11) (hu : ∀ u ∈ c.uids, StrongHash u.sig)
    (hs : ∀ s ∈ c.subkeys, s.sym ≤ 13 ∧ 1 ≤ s.hash ∧ s.hash ≤ 11 ∧ StrongHash s.sig) :
    c.gpgValid = .ok true ↔ PrimarySize c.pka c.bits ∧ c.uids ≠ [] ∧ ∀ s ∈ c.subkeys, SubkeySize c.bits s.pka s.bits := by
  obtain ⟨h1, h2, h3⟩ := hc
  rw [KeyConfig.gpgValid, show symNamed c.sym = true by simp [symNamed, h1], show hashNamed c.hash = true by simp [hashNamed, h2, h3], usersValid_strong _ hu,
    ← primarySize_iff, ← subkeysValid_strong _ hs]
  simp only [Out.ok_bind]
  cases gpgNamed c.pka <;> cases gpgCanSign c.pka <;> cases gpgPrimarySize c.pka c.bits <;> by_cases hn : c.uids = [] <;> simp [hn]

/-! ## Examples -/

section
def gpgConfig (bits sub : Nat) (pka : UInt8) : KeyConfig :=
  ⟨[1], 1, bits, 9, 8, [⟨[65], [], [], 8⟩], [⟨pka, sub, 9, 8, 8⟩]⟩

example : StrongHash 8 ∧ PrimarySize 1 2048 ∧ ¬ PrimarySize 19 1025 ∧ SubkeySize 1024 18 7 := by simp [StrongHash, PrimarySize, SubkeySize]
example : (gpgConfig 2048 4096 1).gpgValid = .ok true ∧ (gpgConfig 2048 4097 1).gpgValid = .ok false := by decide +kernel
example : (gpgConfig 1024 7 18).gpgValid = .ok true ∧ (gpgConfig 2048 256 18).gpgValid = .ok false := by decide +kernel
end

end OpenPGP
