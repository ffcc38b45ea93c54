import Verif.Lemmas.Valid

/-!
# C59: `valid()` and writing with a status

`packet.valid(check_mpi)` against the fields that RFC 4880 allows (Spec/Valid), and `write(armor, &status, check_mpi)`.
-/
namespace OpenPGP
open Rfc

variable {E : Type} {regexOk : Bytes → Bool} {validE : E → Out Status} {good : E → Prop}

/-- No subpacket with an embedded signature. -/
def Tag2.NoEmbedded (s : Tag2 E) : Prop := ∀ x ∈ s.hashed ++ s.unhashed, ∀ e, x.body ≠ .embedded e

/-- What the check is not right about (see `C59_embedded_fails`, `C59_specifier_fails`): embedded signatures, and string-to-key specifiers of secret keys. -/
def Body.Checkable : Body E → Prop
  | .sig s => s.NoEmbedded
  | .secretKey t => ∀ s, t.s2k = some s → AllowedS2K s
  | .secretSubkey t => ∀ s, t.s2k = some s → AllowedS2K s
  | _ => True

theorem ite_ok {p : Prop} [Decidable p] {a b : Status} : (Out.ok (if p then a else b)) = (if p then Out.ok a else .ok b) := by split <;> rfl

theorem sub_valid_iff (b : SubBody E) (h : ∀ e, b ≠ .embedded e) : b.valid regexOk validE = .ok .success ↔ AllowedSub regexOk good b := by
  cases b with
  | embedded e => exact absurd rfl (h e)
  | regex r => simp only [SubBody.valid, AllowedSub, Out.ok.injEq]; split <;> simp_all
  | prefSym s => simp only [SubBody.valid, AllowedSub, Out.ok.injEq]; exact octetsValid_iff symNamed_iff (by decide) s
  | prefHash s => simp only [SubBody.valid, AllowedSub, Out.ok.injEq]; exact octetsValid_iff hashNamed_iff (by decide) s
  | prefComp s => simp only [SubBody.valid, AllowedSub, Out.ok.injEq]; exact octetsValid_iff compNamed_iff (by decide) s
  | revKey c p f =>
    simp only [SubBody.valid, AllowedSub, Out.ok.injEq, class_iff, ← pkaNamed_iff]
    by_cases h1 : 0x80 ≤ c.toNat
    · by_cases h2 : pkaNamed p = true
      · by_cases h3 : f.length = 20 <;> simp [h1, h2, h3]
      · simp [h1, h2]
    · simp [h1]
  | issuer k => simp only [SubBody.valid, AllowedSub, Out.ok.injEq]; split <;> simp_all
  | «notation» f m n =>
    simp only [SubBody.valid, AllowedSub, Out.ok.injEq]
    by_cases h1 : f.length = 4
    · simp only [h1, ne_eq, not_true_eq_false, if_false, true_and]
      exact octetsValid_iff notationNamed_iff (by decide) f
    · simp [h1]
  | keyServerPrefs s => simp only [SubBody.valid, AllowedSub, Out.ok.injEq]; exact flag_iff (by decide +kernel) s
  | keyFlags s => simp only [SubBody.valid, AllowedSub, Out.ok.injEq]; exact flag_iff (by decide +kernel) s
  | features s => simp only [SubBody.valid, AllowedSub, Out.ok.injEq]; exact flag_iff (by decide +kernel) s
  | reason c w => simp only [SubBody.valid, AllowedSub, Out.ok.injEq, ← reasonNamed_iff]; cases reasonNamed c <;> simp
  | target p a d =>
    simp only [SubBody.valid, AllowedSub, ← pkaNamed_iff]
    by_cases h1 : pkaNamed p = true
    · by_cases h2 : hashNamed a = true
      · simp only [h1, h2, Bool.not_true, Bool.false_eq_true, if_false, true_and]
        rw [← hashLen_iff]
        cases hl : hashLen a with
        | none => simp [mapAt]
        | some l =>
          simp only [mapAt, Out.ok_bind, Out.pure_eq, Out.ok.injEq, Option.some.injEq]
          by_cases h3 : l = d.length <;> simp [h3]
      · simp only [h1, h2, Bool.not_true, Bool.false_eq_true, if_false, true_and, Bool.not_false]
        constructor
        · intro h; simp at h
        · intro h; exact absurd (hashNamed_of_digest h) h2
    · simp [h1]
  | _ => simp [SubBody.valid, AllowedSub]

theorem subs_valid_iff {p : SubBody E → Prop} (ss : List (Sub E)) (h : ∀ x ∈ ss, x.body.valid regexOk validE = .ok .success ↔ p x.body) :
    subsValid regexOk validE ss = .ok .success ↔ ∀ x ∈ ss, p x.body := by
  induction ss with
  | nil => simp [subsValid]
  | cons s ss ih =>
    have h1 := h s List.mem_cons_self
    have ih := ih fun x hx => h x (List.mem_cons_of_mem _ hx)
    rw [subsValid, List.forall_mem_cons, ← h1, ← ih]
    constructor
    · intro h'
      obtain ⟨st, h2, h3⟩ := Out.bind_eq_ok.mp h'
      by_cases hs : st = .success
      · rw [hs] at h2 h3
        exact ⟨h2, by simpa using h3⟩
      · rw [if_pos hs] at h3
        exact absurd (Out.ok.inj h3) hs
    · intro ⟨h2, h3⟩
      rw [h2, Out.ok_bind, if_neg (by simp), h3]

theorem sig_valid_iff (mpis : Bool) (s : Tag2 E) {p : SubBody E → Prop}
    (h : ∀ x ∈ s.hashed ++ s.unhashed, x.body.valid regexOk validE = .ok .success ↔ p x.body) :
    s.valid regexOk validE mpis = .ok .success ↔ (s.version = 3 ∨ s.version = 4) ∧ SigType s.type ∧ s.pka ∈ [1, 3, 17] ∧ HashAlg s.hash ∧
      (s.version = 4 → ∀ x ∈ s.hashed ++ s.unhashed, p x.body) ∧ s.left16.length = 2 ∧ (mpis → (s.pka, s.mpi.length) ∈ [(1, 1), (3, 1), (17, 2)]) := by
  have hh := subs_valid_iff s.hashed fun x hx => h x (List.mem_append_left _ hx)
  have hu := subs_valid_iff s.unhashed fun x hx => h x (List.mem_append_right _ hx)
  have hcount : s.pka ∈ [1, 3, 17] → (s.mpi.length = (if s.pka = 17 then 2 else 1) ↔ (s.pka, s.mpi.length) ∈ [(1, 1), (3, 1), (17, 2)]) := by
    intro hp
    simp only [List.mem_cons, List.not_mem_nil, or_false] at hp
    rcases hp with hp | hp | hp <;> rw [hp] <;> simp
  rw [Tag2.valid, ← sigTypeNamed_iff, ← canSign_mem, ← hashNamed_iff]
  by_cases h1 : s.version = 3 ∨ s.version = 4
  swap
  · rw [if_pos (by tauto)]; simp [h1]
  rw [if_neg (by tauto)]
  by_cases h2 : sigTypeNamed s.type = true
  swap
  · simp [h2]
  by_cases h4 : canSign s.pka = true
  swap
  · simp only [h4]
    by_cases h3 : pkaNamed s.pka = true <;> simp [h2, h3]
  have h3 : pkaNamed s.pka = true := by
    rw [pkaNamed_iff]
    have := (canSign_mem s.pka).mp h4
    simp only [List.mem_cons, List.not_mem_nil, or_false] at this
    rcases this with h | h | h <;> rw [h] <;> decide
  by_cases h5 : hashNamed s.hash = true
  swap
  · simp [h2, h3, h4, h5]
  simp only [h1, h2, h3, h4, h5, Bool.not_true, Bool.false_eq_true, if_false, true_and]
  rw [← hcount ((canSign_mem s.pka).mp h4)]
  rw [List.forall_mem_append, ← hh, ← hu]
  generalize (if s.pka = 17 then 2 else 1) = cnt
  by_cases hv : s.version = 4
  · simp only [hv, if_true, true_implies]
    constructor
    · intro h'
      obtain ⟨a, ha, h'⟩ := Out.bind_eq_ok.mp h'
      by_cases hs : a = .success
      · subst hs
        rw [if_neg (by simp)] at h'
        obtain ⟨b, hb, h'⟩ := Out.bind_eq_ok.mp h'
        by_cases hs : b = .success
        · subst hs
          rw [if_neg (by simp)] at h'
          split at h'
          · cases Out.ok.inj h'
          · rename_i hl
            split at h'
            · cases Out.ok.inj h'
            · rename_i hm
              exact ⟨⟨ha, hb⟩, by omega, fun hq => by by_contra hne; exact hm ⟨hq, hne⟩⟩
        · rw [if_pos hs] at h'
          exact absurd (Out.ok.inj h') hs
      · rw [if_pos hs] at h'
        exact absurd (Out.ok.inj h') hs
    · rintro ⟨⟨ha, hb⟩, hl, hm⟩
      rw [ha, Out.ok_bind, if_neg (by simp), hb, Out.ok_bind, if_neg (by simp), if_neg (by omega), if_neg (by rintro ⟨hq, hne⟩; exact hne (hm hq))]
      rfl
  · simp only [hv, if_false, false_implies, true_and, Out.ok_bind, ne_eq, not_true_eq_false]
    constructor
    · intro h'
      split at h'
      · cases Out.ok.inj h'
      · rename_i hl
        split at h'
        · cases Out.ok.inj h'
        · rename_i hm
          exact ⟨by omega, fun hq => by by_contra hne; exact hm ⟨hq, hne⟩⟩
    · rintro ⟨hl, hm⟩
      rw [if_neg (by omega), if_neg (by rintro ⟨hq, hne⟩; exact hne (hm hq))]
      rfl

theorem key_valid_iff (mpis : Bool) (k : KeyPkt) : k.valid mpis = .success ↔ AllowedKey mpis k := by
  have hc : isRSA k.pka = true ∨ k.pka = 17 ∨ k.pka = 16 → (((isRSA k.pka ∧ k.mpi.length = 2) ∨ (k.pka = 17 ∧ k.mpi.length = 4) ∨ (k.pka = 16 ∧ k.mpi.length = 3)) ↔
      (k.pka, k.mpi.length) ∈ [(1, 2), (2, 2), (3, 2), (16, 3), (17, 4)]) := by
    rw [isRSA_mem]
    simp only [List.mem_cons, List.not_mem_nil, or_false, Prod.mk.injEq]
    intro h
    rcases h with (h | h | h) | h | h <;> rw [h] <;> simp
  have hc' : ((isRSA k.pka ∧ k.mpi.length = 2) ∨ (k.pka = 17 ∧ k.mpi.length = 4) ∨ (k.pka = 16 ∧ k.mpi.length = 3)) ↔
      (k.pka, k.mpi.length) ∈ [(1, 2), (2, 2), (3, 2), (16, 3), (17, 4)] := by
    by_cases h : isRSA k.pka = true ∨ k.pka = 17 ∨ k.pka = 16
    · exact hc h
    · constructor
      · intro h'; exact absurd (by tauto) h
      · intro h'
        rw [isRSA_mem] at h
        simp only [List.mem_cons, List.not_mem_nil, or_false, Prod.mk.injEq] at h h'
        tauto
  rw [KeyPkt.valid]
  by_cases h3 : k.version = 3
  · rw [if_pos h3]
    by_cases hr : isRSA k.pka = true
    · have hr' := (isRSA_mem _).mp hr
      have hcount : k.mpi.length = 2 ↔ (k.pka, k.mpi.length) ∈ [(1, 2), (2, 2), (3, 2), (16, 3), (17, 4)] := by
        simp only [List.mem_cons, List.not_mem_nil, or_false, Prod.mk.injEq] at hr' ⊢
        rcases hr' with h | h | h <;> rw [h] <;> simp
      simp only [hr, Bool.not_true, Bool.false_eq_true, if_false]
      split
      · rename_i hm
        exact ⟨fun h => (by cases h), fun h => absurd (hcount.mpr (h.count hm.1)) hm.2⟩
      · rename_i hm
        exact ⟨fun _ => ⟨Or.inl ⟨h3, hr'⟩, fun hq => hcount.mp (by by_contra hne; exact hm ⟨hq, hne⟩)⟩, fun _ => rfl⟩
    · simp only [hr, Bool.not_false, if_true]
      refine ⟨fun h => (by cases h), fun h => ?_⟩
      rcases h.version with h | h
      · exact absurd ((isRSA_mem _).mpr h.2) hr
      · rw [h3] at h; exact absurd h.1 (by decide)
  · rw [if_neg h3]
    by_cases h4 : k.version = 4
    · rw [if_pos h4]
      by_cases hp : pkaNamed k.pka = true
      · simp only [hp, Bool.not_true, Bool.false_eq_true, if_false]
        split
        · rename_i hm
          exact ⟨fun h => (by cases h), fun h => absurd (hc'.mpr (h.count hm.1)) hm.2⟩
        · rename_i hm
          exact ⟨fun _ => ⟨Or.inr ⟨h4, (pkaNamed_iff _).mp hp⟩, fun hq => hc'.mp (by by_contra hne; exact hm ⟨hq, hne⟩)⟩, fun _ => rfl⟩
      · simp only [hp, Bool.not_false, if_true]
        refine ⟨fun h => (by cases h), fun h => ?_⟩
        rcases h.version with h | h
        · exact absurd h.1 h3
        · exact absurd ((pkaNamed_iff _).mpr h.2) hp
    · rw [if_neg h4]
      refine ⟨fun h => (by cases h), fun h => ?_⟩
      rcases h.version with h | h
      · exact absurd h.1 h3
      · exact absurd h.1 h4

theorem secret_valid_iff (mpis : Bool) (t : Tag5) : t.valid mpis = .ok .success ↔
    AllowedKey mpis t.key ∧ (t.s2kCon = 254 ∨ t.s2kCon = 255 → t.s2k ≠ none) ∧ (t.s2kCon ≠ 0 → Block t.sym t.iv.length) := by
  rw [Tag5.valid, ← key_valid_iff]
  by_cases hk : t.key.valid mpis = .success
  swap
  · rw [if_pos hk]
    exact ⟨fun h => absurd (Out.ok.inj h) hk, fun h => absurd h.1 hk⟩
  rw [if_neg (not_not.mpr hk)]
  by_cases hs : (t.s2kCon = 254 ∨ t.s2kCon = 255) ∧ t.s2k = none
  · rw [if_pos hs]
    exact ⟨fun h => (by cases Out.ok.inj h), fun h => absurd hs.2 (h.2.1 hs.1)⟩
  rw [if_neg hs]
  have hs' : t.s2kCon = 254 ∨ t.s2kCon = 255 → t.s2k ≠ none := fun h h' => hs ⟨h, h'⟩
  have hsym : Block t.sym t.iv.length → symNamed t.sym = true := by
    rw [← blockLen_iff]
    intro h
    exact u8_all (p := fun a => (blockLen a).isSome → symNamed a = true) (by decide +kernel) t.sym (by rw [h]; rfl)
  split
  · rename_i h1
    refine ⟨fun h => (by cases Out.ok.inj h), fun h => ?_⟩
    have := hsym (h.2.2 h1.2.1)
    rw [this] at h1
    exact absurd h1.2.2 (by decide)
  · split
    · rename_i h0
      rw [← blockLen_iff]
      cases hb : blockLen t.sym with
      | none => exact ⟨fun h => (by cases h), fun h => (by cases h.2.2 h0)⟩
      | some b =>
        simp only [mapAt, Out.ok_bind, Out.pure_eq, Out.ok.injEq, Option.some.injEq]
        by_cases hl : t.iv.length = b
        · simp only [hl, ne_eq, not_true_eq_false, if_false, true_iff, hk, true_and, implies_true, and_true]
          exact hs'
        · simp only [hl, ne_eq, not_false_eq_true, if_true]
          exact ⟨fun h => (by cases h), fun h => absurd (h.2.2 h0).symm hl⟩
    · rename_i h0
      simp only [hk, true_and, true_iff]
      exact ⟨hs', fun h => absurd h h0⟩

theorem attrs_valid_iff (l : List Attr) : attrsValid l = .success ↔ ∀ a ∈ l, a.version = 1 ∧ a.encoding = 1 := by
  induction l with
  | nil => simp [attrsValid]
  | cons a l ih =>
    have ha : a.valid = .success ↔ a.version = 1 ∧ a.encoding = 1 := by
      rw [Attr.valid]
      by_cases h1 : a.version = 1 <;> by_cases h2 : a.encoding = 1 <;> simp [h1, h2]
    rw [attrsValid, List.forall_mem_cons, ← ha, ← ih]
    by_cases h : a.valid = .success <;> simp [h]

/-- **The check.** For packets of every kind, `valid()` returns SUCCESS exactly if the fields are ones that RFC 4880 allows; with `check_mpi` the number of integers is
looked at too. Left out are embedded signatures and the specifiers of secret keys, where the check is wrong (below). -/
theorem C59_valid_partial (mpis : Bool) (b : Body E) (h : b.Checkable) :
    b.valid regexOk validE mpis = .ok .success ↔ Allowed regexOk good mpis b := by
  cases b with
  | pkesk t =>
    simp only [Body.valid, Allowed, Out.ok.injEq, Tag1.valid]
    rw [← canEncrypt_mem]
    by_cases h1 : t.version = 3
    swap
    · simp [h1]
    by_cases h2 : t.keyid.length = 8
    swap
    · simp [h1, h2]
    by_cases h4 : canEncrypt t.pka = true
    swap
    · by_cases h3 : pkaNamed t.pka = true <;> simp [h1, h2, h3, h4]
    have hp := (canEncrypt_mem t.pka).mp h4
    have h3 : pkaNamed t.pka = true := by
      rw [pkaNamed_iff]
      simp only [List.mem_cons, List.not_mem_nil, or_false] at hp
      rcases hp with h | h | h <;> rw [h] <;> decide
    have hcount : t.mpi.length = (if t.pka = 16 then 2 else 1) ↔ (t.pka, t.mpi.length) ∈ [(1, 1), (2, 1), (16, 2)] := by
      simp only [List.mem_cons, List.not_mem_nil, or_false] at hp
      rcases hp with hp | hp | hp <;> rw [hp] <;> simp
    simp only [h1, h2, h3, h4, ne_eq, not_true_eq_false, if_false, Bool.not_true, Bool.false_eq_true, true_and]
    rw [← hcount]
    generalize (if t.pka = 16 then 2 else 1) = cnt
    split
    · rename_i hm
      exact ⟨fun h => (by cases h), fun h => absurd (h hm.1) hm.2⟩
    · rename_i hm
      exact ⟨fun _ hq => by by_contra hne; exact hm ⟨hq, hne⟩, fun _ => rfl⟩
  | sig s =>
    rw [Body.valid, sig_valid_iff mpis s fun x hx => sub_valid_iff (good := good) x.body (h x hx)]
    exact ⟨fun ⟨a, b, c, d, e, f, g⟩ => ⟨a, b, c, d, e, f, g⟩, fun ⟨a, b, c, d, e, f, g⟩ => ⟨a, b, c, d, e, f, g⟩⟩
  | skesk t =>
    simp only [Body.valid, Allowed, Out.ok.injEq, Tag3.valid, ← symNamed_iff]
    by_cases h1 : t.version = 4
    swap
    · simp [h1]
    by_cases h2 : symNamed t.sym = true
    swap
    · simp [h1, h2]
    simp only [h1, h2, ne_eq, not_true_eq_false, if_false, Bool.not_true, Bool.false_eq_true, true_and]
    cases t.s2k with
    | none => simp
    | some s => simp [S2K.valid_iff]
  | onePass t =>
    simp only [Body.valid, Allowed, Out.ok.injEq, Tag4.valid, ← sigTypeNamed_iff, ← hashNamed_iff, ← pkaNamed_iff]
    by_cases h1 : t.version = 3
    swap
    · simp [h1]
    by_cases h2 : sigTypeNamed t.type = true
    swap
    · simp [h1, h2]
    by_cases h3 : hashNamed t.hash = true
    swap
    · simp [h1, h2, h3]
    by_cases h4 : pkaNamed t.pka = true
    swap
    · simp [h1, h2, h3, h4]
    by_cases h5 : t.keyid.length = 8 <;> simp [h1, h2, h3, h4, h5]
  | secretKey t =>
    rw [Body.valid, secret_valid_iff]
    refine ⟨fun ⟨a, b, c⟩ => ⟨a, fun hc => ?_, c⟩, fun ⟨a, b, c⟩ => ⟨a, fun hc hn => ?_, c⟩⟩
    · obtain ⟨s, hs⟩ := Option.ne_none_iff_exists'.mp (b hc)
      exact ⟨s, hs, h s hs⟩
    · obtain ⟨s, hs, -⟩ := b hc
      rw [hn] at hs; cases hs
  | secretSubkey t =>
    rw [Body.valid, secret_valid_iff]
    refine ⟨fun ⟨a, b, c⟩ => ⟨a, fun hc => ?_, c⟩, fun ⟨a, b, c⟩ => ⟨a, fun hc hn => ?_, c⟩⟩
    · obtain ⟨s, hs⟩ := Option.ne_none_iff_exists'.mp (b hc)
      exact ⟨s, hs, h s hs⟩
    · obtain ⟨s, hs, -⟩ := b hc
      rw [hn] at hs; cases hs
  | publicKey k => rw [Body.valid, Out.ok.injEq, key_valid_iff]; rfl
  | publicSubkey k => rw [Body.valid, Out.ok.injEq, key_valid_iff]; rfl
  | compressed c d => simp only [Body.valid, Allowed, Out.ok.injEq, ← compNamed_iff]; cases compNamed c <;> simp
  | symEnc d => simp only [Body.valid, Allowed, Out.ok.injEq]; split <;> simp <;> omega
  | marker m => simp only [Body.valid, Allowed, Out.ok.injEq]; rw [show ascii "PGP" = [0x50, 0x47, 0x50] by decide]; split <;> simp_all
  | literal t => simp only [Body.valid, Allowed, Out.ok.injEq, ← literalNamed_iff]; cases literalNamed t.format <;> simp
  | trust t => simp [Body.valid, Allowed]
  | userId u => simp [Body.valid, Allowed]
  | userAttr l => rw [Body.valid, Out.ok.injEq, attrs_valid_iff]; rfl
  | seip v d => simp only [Body.valid, Allowed, Out.ok.injEq]; split <;> simp_all
  | mdc hh => simp only [Body.valid, Allowed, Out.ok.injEq]; split <;> simp_all
  | priv n s => simp [Body.valid, Allowed]

/-! ## Signatures -/

/-- **Exactly.** `valid()` of a signature returns SUCCESS exactly if RFC 4880 allows its fields, except that the embedded signatures must be ones which `valid()` does
not accept. -/
theorem C59_signature (mpis : Bool) (s : Tag2 E) :
    s.valid regexOk validE mpis = .ok .success ↔ AllowedSig regexOk (fun e => ∃ st, validE e = .ok st ∧ st ≠ .success) mpis s := by
  rw [sig_valid_iff mpis s (p := AllowedSub regexOk (fun e => ∃ st, validE e = .ok st ∧ st ≠ .success)) fun x _ => ?_]
  · exact ⟨fun ⟨a, b, c, d, e, f, g⟩ => ⟨a, b, c, d, e, f, g⟩, fun ⟨a, b, c, d, e, f, g⟩ => ⟨a, b, c, d, e, f, g⟩⟩
  · by_cases he : ∃ e, x.body = .embedded e
    · obtain ⟨e, he⟩ := he
      rw [he]
      cases e with
      | none => simp [SubBody.valid, AllowedSub]
      | some e =>
        simp only [SubBody.valid, AllowedSub, Option.some.injEq, exists_eq_left']
        constructor
        · intro h
          obtain ⟨st, h1, h2⟩ := Out.bind_eq_ok.mp h
          refine ⟨st, h1, fun hs => ?_⟩
          rw [if_pos hs] at h2
          cases Out.ok.inj h2
        · rintro ⟨st, h1, h2⟩
          rw [h1, Out.ok_bind, if_neg h2]; rfl
    · exact sub_valid_iff x.body fun e h => he ⟨e, h⟩

/-- **A binding of a signing subkey is refused.** A version 4 signature with a good embedded signature is never accepted, and one which is otherwise good is accepted
if each of its embedded signatures is bad: `Sub32` negates the status (Sub32.cpp:19). -/
theorem C59_embedded_fails (mpis : Bool) (s : Tag2 E) (h4 : s.version = 4) :
    (∀ x ∈ s.hashed ++ s.unhashed, ∀ e, x.body = .embedded (some e) → validE e = .ok .success → s.valid regexOk validE mpis ≠ .ok .success) ∧
    (AllowedSig regexOk (fun e => validE e = .ok .version) mpis s → s.valid regexOk validE mpis = .ok .success) := by
  refine ⟨fun x hx e he hv h => ?_, fun h => ?_⟩
  · have := ((C59_signature mpis s).mp h).subs h4 x hx
    rw [he] at this
    obtain ⟨e', h1, st, h2, h3⟩ := this
    obtain rfl := Option.some.inj h1
    rw [hv] at h2
    exact h3 (Out.ok.inj h2).symm
  · refine (C59_signature mpis s).mpr ⟨h.version, h.type, h.pka, h.hash, fun _ x hx => ?_, h.left16, h.count⟩
    have := h.subs h4 x hx
    revert this
    cases x.body with
    | embedded e =>
      rintro ⟨e', h1, h2⟩
      exact ⟨e', h1, .version, h2, by decide⟩
    | _ => exact id

/-- A signature of the given type with nothing but a time. -/
private def plainSig {E : Type} (type : UInt8) (subs : List (Sub E)) : Tag2 E := ⟨4, type, 1, 8, [5], [1, 2], 0, [], ⟨false, .sigTime 7⟩ :: subs, []⟩

example : validAt (fun _ => true) 1 (plainSig 0x19 []) = .ok .success := by decide +kernel

/-- The binding of a signing subkey, with the signature of the subkey in it as RFC 4880 5.2.1 wants: refused. With a broken signature in it: accepted. -/
example : (plainSig 0x18 [⟨false, .embedded (some (plainSig 0x19 []))⟩] : SigAt 2).valid (fun _ => true) (validAt (fun _ => true) 1) true = .ok .contents ∧
    (plainSig 0x18 [⟨false, .embedded (some { (plainSig 0x19 [] : SigAt 1) with version := 9 })⟩] : SigAt 2).valid (fun _ => true) (validAt (fun _ => true) 1) true =
      .ok .success := by decide +kernel

/-! ## Secret keys -/

/-- **The specifier is not looked at.** A secret key whose specifier names no hash, or has a salt of the wrong length, is accepted, whatever the specifier is. -/
theorem C59_specifier_fails (mpis : Bool) (t : Tag5) (_ : t.s2kCon = 254 ∨ t.s2kCon = 255) (hk : AllowedKey mpis t.key) (hb : Block t.sym t.iv.length) (s : S2K) :
    { t with s2k := some s }.valid mpis = .ok .success :=
  (secret_valid_iff mpis _).mpr ⟨hk, fun _ => by simp, fun _ => hb⟩

/-- A protected RSA key. -/
private def demoSecret : Tag5 := ⟨⟨4, 0, 1, [15, 3], 0⟩, 254, 9, some (.iterated 8 [1, 2, 3, 4, 5, 6, 7, 8] 96), List.replicate 16 0, []⟩

example : demoSecret.valid true = .ok .success ∧ AllowedSecret (true = true) demoSecret := by
  refine ⟨by decide +kernel, ?_⟩
  have h := (C59_valid_partial (E := Empty) (regexOk := fun _ => true) (validE := fun e => e.elim) (good := fun _ => True) true (.secretKey demoSecret)
    (fun s hs => by obtain rfl := Option.some.inj hs; exact ⟨Or.inl (by decide), rfl⟩)).mp (by decide +kernel)
  exact h

example : { demoSecret with s2k := some (.iterated 77 [] 0) }.valid true = .ok .success := by decide +kernel

/-- **Exactly.** -/
theorem C59_secret (mpis : Bool) (t : Tag5) : t.valid mpis = .ok .success ↔
    AllowedKey mpis t.key ∧ (t.s2kCon = 254 ∨ t.s2kCon = 255 → t.s2k ≠ none) ∧ (t.s2kCon ≠ 0 → Block t.sym t.iv.length) := secret_valid_iff mpis t

/-! ## When there is no status -/

/-- **An exception instead of a status.** For a secret key protected with a specifier and a cipher that has no block length (plain text, a reserved number, a number for
experiments, a number not assigned), and for a signature target with a hash that is reserved or for experiments, `valid()` throws. -/
theorem C59_valid_throws :
    (∀ (mpis : Bool) (t : Tag5), AllowedKey mpis t.key → (t.s2kCon = 254 ∨ t.s2kCon = 255) → t.s2k ≠ none → (∀ n, ¬ Block t.sym n) → t.valid mpis = .throw) ∧
    ∀ (pka h : UInt8) (d : Bytes), PkAlg pka → HashAlg h → (∀ n, ¬ Digest h n) → (SubBody.target pka h d : SubBody E).valid regexOk validE = .throw := by
  refine ⟨fun mpis t hk hc hs hb => ?_, fun pka h d hp hh hd => ?_⟩
  · have hbl : blockLen t.sym = none := by
      cases hbl : blockLen t.sym with
      | none => rfl
      | some n => exact absurd ((blockLen_iff _ _).mp hbl) (hb n)
    have h0 : t.s2kCon ≠ 0 := by rcases hc with h | h <;> rw [h] <;> decide
    rw [Tag5.valid, if_neg (not_not.mpr ((key_valid_iff _ _).mpr hk)), if_neg (fun h => hs h.2), if_neg (fun h => h.1 hc), if_pos h0, hbl]
    rfl
  · have hl : hashLen h = none := by
      cases hl : hashLen h with
      | none => rfl
      | some n => exact absurd ((hashLen_iff _ _).mp hl) (hd n)
    simp only [SubBody.valid, (pkaNamed_iff _).mpr hp, (hashNamed_iff _).mpr hh, hl, Bool.not_true, Bool.false_eq_true, if_false]
    rfl

example : { demoSecret with sym := 5 }.valid true = .throw := by decide +kernel
example : { demoSecret with sym := 200 }.valid true = .throw := by decide +kernel
example : (SubBody.target 1 4 [1, 2] : SubBody Empty).valid (fun _ => true) (fun e => e.elim) = .throw := by decide +kernel

/-- In all other packets there is a status for every content. -/
theorem C59_status (mpis : Bool) (b : Body E) (h : match b with | .sig _ => False | .secretKey _ => False | .secretSubkey _ => False | _ => True) :
    ∃ st, b.valid regexOk validE mpis = .ok st := by
  cases b <;> first | exact ⟨_, rfl⟩ | exact h.elim

/-! ## Some packets -/

example : (Body.pkesk ⟨3, [1, 2, 3, 4, 5, 6, 7, 8], 16, [3, 4]⟩ : Body Empty).valid (fun _ => true) (fun e => e.elim) true = .ok .success := by decide +kernel
example : (Body.pkesk ⟨3, [1, 2, 3, 4, 5, 6, 7, 8], 17, [3, 4]⟩ : Body Empty).valid (fun _ => true) (fun e => e.elim) true = .ok .pkaCannotBeUsed := by decide +kernel
example : (Body.publicSubkey ⟨4, 0, 16, [3, 4], 0⟩ : Body Empty).valid (fun _ => true) (fun e => e.elim) true = .ok .mpiCount := by decide +kernel
example : (Body.publicSubkey ⟨4, 0, 16, [3, 4], 0⟩ : Body Empty).valid (fun _ => true) (fun e => e.elim) false = .ok .success := by decide +kernel
example : (Body.trust [1] : Body Empty).valid (fun _ => true) (fun e => e.elim) true = .ok .shouldNotBeEmitted := by decide +kernel
example : (SubBody.keyFlags [0x43] : SubBody Empty).valid (fun _ => true) (fun e => e.elim) = .ok .flag := by decide +kernel

end OpenPGP
