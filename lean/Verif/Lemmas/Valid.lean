import Verif.Model.Valid
import Verif.Spec.Valid

/-!
# Lemmas for C59: the sets of numbers, and the loops
-/
namespace OpenPGP
open Rfc

theorem u8_all {p : UInt8 → Prop} [DecidablePred p] (h : ∀ n < 256, p (UInt8.ofNat n)) (a : UInt8) : p a := by
  have := h a.toNat a.toNat_lt
  rwa [UInt8.ofNat_toNat] at this

instance (a : UInt8) : Decidable (private_ a) := by unfold private_; infer_instance
instance (a : UInt8) : Decidable (PkAlg a) := by unfold PkAlg; infer_instance
instance (a : UInt8) : Decidable (SymAlg a) := by unfold SymAlg; infer_instance
instance (a : UInt8) : Decidable (CompAlg a) := by unfold CompAlg; infer_instance
instance (a : UInt8) : Decidable (HashAlg a) := by unfold HashAlg; infer_instance
instance (a : UInt8) : Decidable (SigType a) := by unfold SigType; infer_instance
instance (a : UInt8) : Decidable (Reason a) := by unfold Reason; infer_instance

theorem pkaNamed_iff (a : UInt8) : pkaNamed a = true ↔ PkAlg a := u8_all (p := fun a => pkaNamed a = true ↔ PkAlg a) (by decide +kernel) a
theorem symNamed_iff (a : UInt8) : symNamed a = true ↔ SymAlg a := u8_all (p := fun a => symNamed a = true ↔ SymAlg a) (by decide +kernel) a
theorem compNamed_iff (a : UInt8) : compNamed a = true ↔ CompAlg a := u8_all (p := fun a => compNamed a = true ↔ CompAlg a) (by decide +kernel) a
theorem hashNamed_iff (a : UInt8) : hashNamed a = true ↔ HashAlg a := u8_all (p := fun a => hashNamed a = true ↔ HashAlg a) (by decide +kernel) a
theorem sigTypeNamed_iff (a : UInt8) : sigTypeNamed a = true ↔ SigType a := u8_all (p := fun a => sigTypeNamed a = true ↔ SigType a) (by decide +kernel) a
theorem reasonNamed_iff (a : UInt8) : reasonNamed a = true ↔ Reason a := u8_all (p := fun a => reasonNamed a = true ↔ Reason a) (by decide +kernel) a
theorem literalNamed_iff (a : UInt8) : literalNamed a = true ↔ a ∈ [0x62, 0x74, 0x75] :=
  u8_all (p := fun a => literalNamed a = true ↔ a ∈ [0x62, 0x74, 0x75]) (by decide +kernel) a
theorem notationNamed_iff (a : UInt8) : notationNamed a = true ↔ a = 0 ∨ a = 0x80 := u8_all (p := fun a => notationNamed a = true ↔ a = 0 ∨ a = 0x80) (by decide +kernel) a
theorem canSign_mem (a : UInt8) : canSign a = true ↔ a ∈ [1, 3, 17] := u8_all (p := fun a => canSign a = true ↔ a ∈ [1, 3, 17]) (by decide +kernel) a
theorem canEncrypt_mem (a : UInt8) : canEncrypt a = true ↔ a ∈ [1, 2, 16] := u8_all (p := fun a => canEncrypt a = true ↔ a ∈ [1, 2, 16]) (by decide +kernel) a
theorem isRSA_mem (a : UInt8) : isRSA a = true ↔ a ∈ [1, 2, 3] := u8_all (p := fun a => isRSA a = true ↔ a ∈ [1, 2, 3]) (by decide +kernel) a
theorem class_iff (a : UInt8) : a &&& 0x80 = 0 ↔ ¬ 0x80 ≤ a.toNat := u8_all (p := fun a => a &&& 0x80 = 0 ↔ ¬ 0x80 ≤ a.toNat) (by decide +kernel) a

/-- The bits of one octet. -/
theorem flag_iff {named : UInt8 → Bool} {mask : UInt8}
    (hm : ∀ n < 256, ([1, 2, 4, 8, 16, 32, 64, 128].any fun m => UInt8.ofNat n &&& m != 0 && !named m) = false ↔
      ∀ i < 8, (UInt8.ofNat n).toNat.testBit i → mask.toNat.testBit i) (s : Bytes) : flagsValid named s = .success ↔ Only mask s := by
  induction s with
  | nil => simp [flagsValid, Only]
  | cons o os ih =>
    have ho := hm o.toNat o.toNat_lt
    rw [UInt8.ofNat_toNat] at ho
    rw [flagsValid]
    split
    · rename_i h
      constructor
      · intro h'; cases h'
      · intro h'
        have := ho.mpr (h' o List.mem_cons_self)
        rw [h] at this
        cases this
    · rename_i h
      rw [ih, Only, Only, List.forall_mem_cons]
      exact ⟨fun h' => ⟨ho.mp (by simpa using h), h'⟩, fun h' => h'.2⟩

theorem octetsValid_iff {named : UInt8 → Bool} {p : UInt8 → Prop} (h : ∀ a, named a = true ↔ p a) {bad : Status} (hb : bad ≠ .success) (s : Bytes) :
    octetsValid named bad s = .success ↔ ∀ o ∈ s, p o := by
  rw [octetsValid]
  split
  · rename_i ha
    exact ⟨fun _ o ho => (h o).mp (List.all_eq_true.mp ha o ho), fun _ => rfl⟩
  · rename_i ha
    exact ⟨fun h' => absurd h' hb, fun h' => absurd (List.all_eq_true.mpr fun o ho => (h o).mpr (h' o ho)) ha⟩

theorem S2K.valid_iff (s : S2K) : s.valid = .success ↔ AllowedS2K s := by
  cases s <;> simp only [S2K.valid, AllowedS2K, ← hashNamed_iff]
  all_goals
    split
    · simp_all
    · simp_all

theorem blockLen_iff (a : UInt8) (n : Nat) : blockLen a = some n ↔ Block a n := by
  have h := u8_all (p := fun a => (blockLen a = some 8 ↔ a ∈ [1, 2, 3, 4]) ∧ (blockLen a = some 16 ↔ a ∈ [7, 8, 9, 10, 11, 12, 13]) ∧
    (blockLen a = none ∨ blockLen a = some 8 ∨ blockLen a = some 16)) (by decide +kernel) a
  obtain ⟨h1, h2, h3⟩ := h
  rw [Block, ← h1, ← h2]
  rcases h3 with h3 | h3 | h3 <;> rw [h3] <;> simp <;> omega

theorem hashLen_iff (a : UInt8) (n : Nat) : hashLen a = some n ↔ Digest a n := by
  have h := u8_all (p := fun a => hashLen a = ([(1, 16), (2, 20), (3, 20), (8, 32), (9, 48), (10, 64), (11, 28)].lookup a)) (by decide +kernel) a
  have key : ∀ (l : List (UInt8 × Nat)), (l.map Prod.fst).Nodup → (l.lookup a = some n ↔ (a, n) ∈ l) := by
    intro l hl
    induction l with
    | nil => simp
    | cons x l ih =>
      obtain ⟨b, m⟩ := x
      have hl' := List.nodup_cons.mp hl
      by_cases hab : a = b
      · subst hab
        rw [List.lookup_cons_self]
        constructor
        · intro h; obtain rfl := Option.some.inj h; exact List.mem_cons_self
        · intro h
          rcases List.mem_cons.mp h with h | h
          · exact congrArg _ (Prod.mk.inj h).2.symm
          · exact absurd (List.mem_map.mpr ⟨_, h, rfl⟩) hl'.1
      · have : (a == b) = false := by simpa using hab
        rw [List.lookup_cons, this, ih hl'.2, List.mem_cons]
        exact ⟨Or.inr, fun h => h.resolve_left fun h => hab (Prod.mk.inj h).1⟩
  rw [h, key _ (by decide), Digest]

theorem hashNamed_of_digest {a : UInt8} {n : Nat} (h : Digest a n) : hashNamed a = true := by
  have h := (hashLen_iff a n).mpr h
  exact u8_all (p := fun a => (hashLen a).isSome → hashNamed a = true) (by decide +kernel) a (by rw [h]; rfl)

end OpenPGP
