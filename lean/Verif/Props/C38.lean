import Verif.Model.Tag2

/-!
# C38: issuer and subpacket lookup

`get_keyid` returns an issuer subpacket's key ID if there is one and is empty otherwise (`C38_keyid_partial`); the
unhashed area comes first. The second half of the property does not hold: unprotected (unhashed) subpackets win over
hashed ones, in `get_keyid`, in `find_subpacket` and in the expiry times (`C38_*_fails`). The creation time is safe
(`C38_creation_hashed`).
-/
namespace OpenPGP
variable {E : Type}

/-- `s` carries the issuer key ID `k` in the area `l`. -/
def hasIssuer (l : List (Sub E)) (k : Bytes) : Prop := ∃ s ∈ l, s.body = .issuer k

theorem firstIssuer_some {l : List (Sub E)} {k : Bytes} (h : Tag2.firstIssuer l = some k) : hasIssuer l k := by
  induction l with
  | nil => simp [Tag2.firstIssuer] at h
  | cons s l ih =>
    unfold Tag2.firstIssuer at h
    split at h
    · rename_i k' hk
      obtain rfl : k' = k := by simpa using h
      exact ⟨s, by simp, hk⟩
    · obtain ⟨x, hx, hb⟩ := ih h
      exact ⟨x, by simp [hx], hb⟩

theorem firstIssuer_none {l : List (Sub E)} (h : Tag2.firstIssuer l = none) (k : Bytes) : ¬ hasIssuer l k := by
  induction l with
  | nil => rintro ⟨s, hs, _⟩; simp at hs
  | cons s l ih =>
    unfold Tag2.firstIssuer at h
    split at h
    · simp at h
    · rename_i hn
      rintro ⟨x, hx, hb⟩
      rcases List.mem_cons.mp hx with rfl | hx
      · exact hn k hb
      · exact ih h ⟨x, hx, hb⟩

/-- `get_keyid` of a version 4 signature: the key ID of an issuer subpacket if there is one, otherwise empty. -/
theorem C38_keyid_partial (s : Tag2 E) (h4 : s.version = 4) :
    ∃ k, s.getKeyid = .ok k ∧
      (hasIssuer s.unhashed k ∨ hasIssuer s.hashed k ∨
        (k = [] ∧ ∀ k', ¬ hasIssuer s.unhashed k' ∧ ¬ hasIssuer s.hashed k')) := by
  unfold Tag2.getKeyid
  rw [if_neg (by rw [h4]; decide), if_pos h4]
  rcases hu : Tag2.firstIssuer s.unhashed with _ | k
  · rcases hh : Tag2.firstIssuer s.hashed with _ | k
    · exact ⟨[], rfl, Or.inr (Or.inr ⟨rfl, fun k' => ⟨firstIssuer_none hu k', firstIssuer_none hh k'⟩⟩)⟩
    · exact ⟨k, rfl, Or.inr (Or.inl (firstIssuer_some hh))⟩
  · exact ⟨k, rfl, Or.inl (firstIssuer_some hu)⟩

/-- With exactly one issuer value in the signature, `get_keyid` returns it, whichever area it is in. -/
theorem C38_keyid_unique (s : Tag2 E) (h4 : s.version = 4) (k : Bytes)
    (hex : hasIssuer (s.unhashed ++ s.hashed) k)
    (hu : ∀ k', hasIssuer (s.unhashed ++ s.hashed) k' → k' = k) : s.getKeyid = .ok k := by
  obtain ⟨k', h1, h2⟩ := C38_keyid_partial s h4
  rw [h1]
  have lift : ∀ k, (hasIssuer s.unhashed k ∨ hasIssuer s.hashed k) ↔ hasIssuer (s.unhashed ++ s.hashed) k := by
    intro k; simp only [hasIssuer, List.mem_append]
    constructor
    · rintro (⟨x, hx, hb⟩ | ⟨x, hx, hb⟩)
      · exact ⟨x, Or.inl hx, hb⟩
      · exact ⟨x, Or.inr hx, hb⟩
    · rintro ⟨x, hx | hx, hb⟩
      · exact Or.inl ⟨x, hx, hb⟩
      · exact Or.inr ⟨x, hx, hb⟩
  rcases h2 with h2 | h2 | ⟨_, h2⟩
  · rw [hu k' ((lift k').mp (Or.inl h2))]
  · rw [hu k' ((lift k').mp (Or.inr h2))]
  · rcases (lift k).mpr hex with h | h
    · exact absurd h (h2 k).1
    · exact absurd h (h2 k).2

/-- The signature made by `set_keyid` on a version 4 signature reports that key ID. -/
theorem C38_set_keyid (s s' : Tag2 E) (h4 : s.version = 4) (k : Bytes) (h : s.setKeyid k = .ok s') :
    s'.getKeyid = .ok k := by
  unfold Tag2.setKeyid at h
  split at h
  · simp at h
  · rw [if_neg (show ¬ s.version = 3 by rw [h4]; decide)] at h
    obtain rfl := Out.ok.inj h
    unfold Tag2.getKeyid
    simp only
    rw [if_neg (by rw [h4]; decide), if_pos h4]
    have : ∀ l : List (Sub E), Tag2.firstIssuer
        (Tag2.replaceFirst (fun x => x.body.type == 16) ⟨false, .issuer k⟩ l) = some k := by
      intro l
      induction l with
      | nil => rfl
      | cons a l ih =>
        unfold Tag2.replaceFirst
        split
        · rfl
        · rename_i hne
          unfold Tag2.firstIssuer
          split
          · rename_i hb; rw [hb] at hne; simp [SubBody.type] at hne
          · exact ih
    rw [this]

theorem timesLoop_fst (l : List (Sub E)) (t : Nat × Nat × Nat) : (Tag2.timesLoop false l t).1 = t.1 := by
  induction l generalizing t with
  | nil => rfl
  | cons a l ih =>
    unfold Tag2.timesLoop at ih ⊢
    rw [List.foldl_cons, ih]
    split <;> simp

theorem timesLoop_true_fst (l : List (Sub E)) (t t' : Nat × Nat × Nat) (h : t.1 = t'.1) :
    (Tag2.timesLoop true l t).1 = (Tag2.timesLoop true l t').1 := by
  induction l generalizing t t' with
  | nil => exact h
  | cons a l ih =>
    unfold Tag2.timesLoop at ih ⊢
    rw [List.foldl_cons, List.foldl_cons]
    apply ih
    split <;> simp [h]

/-- The creation time reported by a version 4 signature comes from the hashed area alone. -/
theorem C38_creation_hashed (s s' : Tag2 E) (t t' : Nat × Nat × Nat) (hh : s.hashed = s'.hashed)
    (h4 : s.version = 4) (h4' : s'.version = 4) (ht : s.getTimes = .ok t) (ht' : s'.getTimes = .ok t') :
    t.1 = t'.1 := by
  unfold Tag2.getTimes at ht ht'
  rw [if_neg (by rw [h4]; decide), if_pos h4] at ht
  rw [if_neg (by rw [h4']; decide), if_pos h4'] at ht'
  simp only at ht ht'
  split at ht; · simp at ht
  split at ht'; · simp at ht'
  have e := congrArg Prod.fst (Out.ok.inj ht)
  have e' := congrArg Prod.fst (Out.ok.inj ht')
  simp only [timesLoop_fst] at e e'
  rw [← e, ← e', hh]

/-- Disagreement: whatever the hashed area says, an unhashed issuer decides `get_keyid`. -/
theorem C38_keyid_override_fails (s : Tag2 E) (h4 : s.version = 4) (k : Bytes) (c : Bool) (rest : List (Sub E))
    (hu : s.unhashed = ⟨c, .issuer k⟩ :: rest) : s.getKeyid = .ok k := by
  unfold Tag2.getKeyid
  rw [if_neg (by rw [h4]; decide), if_pos h4, hu]; rfl

/-- Disagreement: an unhashed subpacket overrides a hashed one of the same type in `find_subpacket`. -/
theorem C38_find_override_fails (rawE : E → Bytes) (s : Tag2 E) (x : Sub E) (rest : List (Sub E))
    (hu : s.unhashed = x :: rest) : s.findSubpacket rawE x.body.type = x.body.raw rawE := by
  unfold Tag2.findSubpacket
  rw [hu]; simp

/-- Without a subpacket of the type in the unhashed area, `find_subpacket` returns the first hashed one. -/
theorem C38_find_hashed (rawE : E → Bytes) (s : Tag2 E) (pre post : List (Sub E)) (x : Sub E)
    (hh : s.hashed = pre ++ x :: post) (hpre : ∀ y ∈ pre, y.body.type ≠ x.body.type)
    (hu : ∀ y ∈ s.unhashed, y.body.type ≠ x.body.type) :
    s.findSubpacket rawE x.body.type = x.body.raw rawE := by
  unfold Tag2.findSubpacket
  have h1 : s.unhashed.find? (fun y => y.body.type == x.body.type) = none := by
    rw [List.find?_eq_none]; intro y hy; simpa using hu y hy
  have h2 : s.hashed.find? (fun y => y.body.type == x.body.type) = some x := by
    rw [hh, List.find?_append, List.find?_eq_none.mpr (by intro y hy; simpa using hpre y hy)]
    simp
  rw [h1, h2]

/-- Disagreement: appending an unhashed expiry changes the expiry of a signature whose hashed area sets another. -/
theorem C38_expiry_override_fails (s : Tag2 E) (h4 : s.version = 4) (c : Bool) (x : Nat) (t : Nat × Nat × Nat)
    (hx : x ≠ 0) (ht : s.getTimes = .ok t) :
    ∃ sig, Tag2.getTimes { s with unhashed := s.unhashed ++ [⟨c, .sigExpire x⟩] } = .ok (t.1, sig, t.2.2) ∧
      sig = (x + t.1) % 2 ^ 32 := by
  unfold Tag2.getTimes at ht ⊢
  rw [if_neg (by rw [h4]; decide), if_pos h4] at ht
  simp only
  rw [if_neg (by rw [h4]; decide), if_pos h4]
  have hl : ∀ t0 : Nat × Nat × Nat, Tag2.timesLoop false (s.unhashed ++ [(⟨c, .sigExpire x⟩ : Sub E)]) t0 =
      ((Tag2.timesLoop false s.unhashed t0).1, x, (Tag2.timesLoop false s.unhashed t0).2.2) := by
    intro t0; simp [Tag2.timesLoop, List.foldl_append]
  rw [hl]
  simp only at ht ⊢
  split at ht
  · simp at ht
  · rename_i hne
    rw [if_neg hne]
    obtain rfl := Out.ok.inj ht
    exact ⟨_, rfl, by rw [if_pos hx]⟩

/-- A signature meeting the hypotheses above: created at 1000, hashed expiry 60, issuer unhashed. -/
def c38Sig : Tag2 Empty :=
  ⟨4, 0, 1, 8, [5], [1, 2], 0, [], [⟨false, .sigTime 1000⟩, ⟨true, .sigExpire 60⟩], [⟨false, .issuer [8, 7, 6, 5, 4, 3, 2, 1]⟩]⟩

example : c38Sig.version = 4 ∧ c38Sig.getTimes = .ok (1000, 1060, 0) ∧
    c38Sig.getKeyid = .ok [8, 7, 6, 5, 4, 3, 2, 1] ∧
    Tag2.getTimes { c38Sig with unhashed := c38Sig.unhashed ++ [⟨false, .sigExpire 999999⟩] } = .ok (1000, 1000999, 0) := by
  decide

end OpenPGP
