import Verif.Props.C59Keys
import Verif.Props.C43Cert
import Verif.Props.C46

/-!
# C59: merged keys and revocations are valid
-/
namespace OpenPGP
open Rfc

variable {E : Type} {regexOk : Bytes → Bool} {validE : E → Out Status}

/-- **Merging.** If the packets of two keys are valid, so are those of the key they are merged into. -/
theorem C59_merged (rawE : E → Bytes) (addr addr' : Nat → Nat) (mpis : Bool) (k k' m : KeyObj E) (good : Bool)
    (hk : ∀ p ∈ k.packets, p.body.valid regexOk validE mpis = .ok .success) (hk' : ∀ p ∈ k'.packets, p.body.valid regexOk validE mpis = .ok .success)
    (h : k.merge rawE addr addr' k' = .ok (m, good)) : ∀ p ∈ m.packets, p.body.valid regexOk validE mpis = .ok .success :=
  fun p hp => ((C46_contents rawE addr addr' k k' m good h).1 p hp).elim (hk p) (hk' p)

/-- Two keys with valid packets that can be merged. -/
example : (∀ p ∈ c46A.packets, p.body.valid (fun _ => true) (fun _ => .ok .success) false = .ok .success) ∧
    (∀ p ∈ c46B.packets, p.body.valid (fun _ => true) (fun _ => .ok .success) false = .ok .success) ∧
    ∃ m, c46A.merge c46Raw id id c46B = .ok (m, true) :=
  ⟨by decide +kernel, by decide +kernel, match c46A.merge c46Raw id id c46B with | .ok (m, _) => m | _ => c46A, by decide +kernel⟩

theorem signerPacket_signerOf {k : KeyObj E} {b : Body E} {t : Tag5} (h : signerPacket k = .ok (some (b, t))) : signerOf k = .ok (some t) := by
  rw [signerPacket] at h
  rw [signerOf]
  obtain ⟨o, ho, h⟩ := Out.bind_eq_ok.mp h
  rw [ho]
  cases o with
  | none => cases Out.ok.inj h
  | some p =>
    change (match p.body.secretPart with | none => Out.ub | some t => pure (some (p.body, t))) = _ at h
    change (match p.body.secretPart with | none => Out.ub | some t => pure (some t)) = _
    cases hs : p.body.secretPart with
    | none => rw [hs] at h; cases h
    | some t' =>
      rw [hs] at h
      have := Option.some.inj (Out.ok.inj h)
      simp only [Prod.mk.injEq] at this
      obtain ⟨-, rfl⟩ := this
      rfl

theorem RevokeArgs.reason_of_valid {a : RevokeArgs E} (h : a.valid = .ok true) : Reason a.code := by
  rw [RevokeArgs.valid] at h
  split at h
  · cases Out.ok.inj h
  obtain ⟨g, -, h⟩ := Out.bind_eq_ok.mp h
  split at h
  · cases Out.ok.inj h
  obtain ⟨g, -, h⟩ := Out.bind_eq_ok.mp h
  split at h
  · cases Out.ok.inj h
  split at h
  · cases Out.ok.inj h
  rename_i hr
  rw [← reasonNamed_iff]
  simpa using hr

/-- **Revocations.** Every revocation signature the library makes with a version 4 key (of a key, a subkey or a user ID) is valid. -/
theorem C59_revocation (cr : Crypto) (hcr : cr.Ok) (rawE : E → Bytes) (a : RevokeArgs E) (h4 : ∀ t, signerOf a.signer = .ok (some t) → t.key.version = 4)
    (now : Nat) (draws : List Nat) (id : Bytes) (mpis : Bool) (s : Tag2 E)
    (h : revokeKeySig cr rawE a now draws = .ok (some s) ∨ revokeSubkeySig cr rawE a now draws id = .ok (some s) ∨
      revokeUidSig cr rawE a now draws id = .ok (some s)) : s.valid regexOk validE mpis = .ok .success := by
  have key : ∀ (t : Tag5) (kid : Bytes), signerOf a.signer = .ok (some t) → t.key.keyid cr = .ok kid → kid.length = 8 := by
    intro t kid ht hk
    obtain ⟨f, -, -, -, hkid, hk8⟩ := C11_keyid cr hcr t.key (h4 t ht)
    obtain rfl := Out.ok.inj (hk.symm.trans hkid)
    exact hk8
  have sub2 : ∀ (kid : Bytes), kid.length = 8 → ∀ x ∈ [(⟨false, .sigTime now⟩ : Sub E)] ++ [⟨false, .issuer kid⟩],
      AllowedSub regexOk (fun e => ∃ st, validE e = .ok st ∧ st ≠ .success) x.body := by
    intro kid hk x hx
    simp only [List.cons_append, List.nil_append, List.mem_cons, List.not_mem_nil, or_false] at hx
    rcases hx with rfl | rfl
    · trivial
    · exact hk
  have sub3 : Reason a.code → ∀ (kid : Bytes), kid.length = 8 → ∀ x ∈ ([(⟨false, .sigTime now⟩ : Sub E)] ++ [⟨false, .reason a.code a.reason⟩]) ++ [⟨false, .issuer kid⟩],
      AllowedSub regexOk (fun e => ∃ st, validE e = .ok st ∧ st ≠ .success) x.body := by
    intro hr kid hk x hx
    simp only [List.cons_append, List.nil_append, List.mem_cons, List.not_mem_nil, or_false] at hx
    rcases hx with rfl | rfl | rfl
    · trivial
    · exact hr
    · exact hk
  rcases h with h | h | h
  · rw [revokeKeySig] at h
    obtain ⟨v, hv, h⟩ := Out.bind_eq_ok.mp h
    split at h
    · cases Out.ok.inj h
    rename_i hv'
    rw [Bool.not_eq_true, Bool.not_eq_false'] at hv'
    subst hv'
    obtain ⟨o, ho, h⟩ := Out.bind_eq_ok.mp h
    rcases o with - | ⟨b, t⟩
    · cases Out.ok.inj h
    have ht := signerPacket_signerOf ho
    obtain ⟨kid, hkid, h⟩ := Out.bind_eq_ok.mp h
    rw [revokeSig, if_neg (by simp [createSig])] at h
    rw [if_pos (by rfl)] at h
    exact makeSig_valid hcr (a := a.sign) (input := sign20Input rawE b) h rfl (signerOf_canSign ht) (by show SigType _; dsimp only [createSig]; decide)
      (RevokeArgs.valid_true hv).2.2.2 (sub3 (RevokeArgs.reason_of_valid hv) _ (key t kid ht hkid)) mpis
  · rw [revokeSubkeySig] at h
    obtain ⟨v, hv, h⟩ := Out.bind_eq_ok.mp h
    split at h
    · cases Out.ok.inj h
    rename_i hv'
    rw [Bool.not_eq_true, Bool.not_eq_false'] at hv'
    subst hv'
    obtain ⟨o, ho, h⟩ := Out.bind_eq_ok.mp h
    rcases o with - | ⟨b, t⟩
    · cases Out.ok.inj h
    have ht := signerPacket_signerOf ho
    obtain ⟨o, -, h⟩ := Out.bind_eq_ok.mp h
    cases o with
    | none => cases Out.ok.inj h
    | some b' =>
      obtain ⟨kid, hkid, h⟩ := Out.bind_eq_ok.mp h
      rw [revokeSig, if_neg (by simp [createSig])] at h
      rw [if_neg (by simp [createSig])] at h
      exact makeSig_valid hcr (a := a.sign) (input := sign28Input rawE b') h rfl (signerOf_canSign ht) (by show SigType _; dsimp only [createSig]; decide)
        (RevokeArgs.valid_true hv).2.2.2 (sub2 _ (key t kid ht hkid)) mpis
  · rw [revokeUidSig] at h
    obtain ⟨v, hv, h⟩ := Out.bind_eq_ok.mp h
    split at h
    · cases Out.ok.inj h
    rename_i hv'
    rw [Bool.not_eq_true, Bool.not_eq_false'] at hv'
    subst hv'
    obtain ⟨o, ho, h⟩ := Out.bind_eq_ok.mp h
    rcases o with - | ⟨b, t⟩
    · cases Out.ok.inj h
    have ht := signerPacket_signerOf ho
    dsimp only at h
    split at h
    · cases Out.ok.inj h
    rename_i user _ _
    obtain ⟨kid, hkid, h⟩ := Out.bind_eq_ok.mp h
    exact makeSig_valid hcr (a := a.sign) (input := signUserInput rawE 0x30 t.key user) h rfl (signerOf_canSign ht)
      (by show SigType _; dsimp only [createSig]; decide)
      (RevokeArgs.valid_true hv).2.2.2 (sub3 (RevokeArgs.reason_of_valid hv) _ (key t kid ht hkid)) mpis

/-- The three kinds of revocation are made with a version 4 key. -/
example : (∃ s, revokeKeySig c43Crypto noE (c43Args [[97], [98]] [1, 2]) 7 [3] = .ok (some s)) ∧
    (∃ s, revokeSubkeySig c43Crypto noE (c43Args [[97], [98]] [1]) 7 [3] [] = .ok (some s)) ∧
    (∃ s, revokeUidSig c43Crypto noE (c43Args [[97], [98]] [1]) 7 [3] [97] = .ok (some s)) ∧
    ∀ t, signerOf (c43Args [[97], [98]] [1, 2]).signer = .ok (some t) → t.key.version = 4 := by
  have some_of : ∀ x : Out (Option (Tag2 Empty)), (match x with | .ok (some _) => true | _ => false) = true → ∃ s, x = .ok (some s) := by
    intro x h
    match x, h with
    | .ok (some s), _ => exact ⟨s, rfl⟩
  refine ⟨some_of _ (by decide +kernel), some_of _ (by decide +kernel), some_of _ (by decide +kernel), ?_⟩
  intro t ht
  have : signerOf (c43Args [[97], [98]] [1, 2]).signer = .ok (some c36Dsa) := by decide +kernel
  obtain rfl := Option.some.inj (Out.ok.inj (ht.symm.trans this))
  rfl

end OpenPGP
