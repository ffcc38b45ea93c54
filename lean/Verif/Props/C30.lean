import Verif.Model.Key
import Verif.Spec.KeyLayout
import Verif.Props.C10

/-!
# C30: the transferable key structure check matches the RFC 4880 layout
-/
namespace OpenPGP
open Rfc KeyObj

section
variable {E : Type}

/-- The list does not start with a signature packet. -/
def noSig (l : List (Body E)) : Prop := ∀ s r, l ≠ .sig s :: r

/-- The list does not start with a user packet. -/
def noUser (l : List (Body E)) : Prop := ∀ b r, l = b :: r → b.tag ≠ 13 ∧ b.tag ≠ 17

theorem noSig_nil : noSig ([] : List (Body E)) := by intro s r; simp

theorem noSig_of_tag {b : Body E} {r : List (Body E)} (h : b.tag ≠ 2) : noSig (b :: r) := by
  intro s r' e
  obtain rfl := (List.cons.inj e).1
  exact h rfl

theorem sig_of_tag {b : Body E} (h : b.tag = 2) : ∃ s, b = .sig s := by
  cases b <;> first | exact ⟨_, rfl⟩ | (exfalso; simp [Body.tag] at h)
  exfalso; rename_i n s; change 60 + n = 2 at h; omega

theorem userId_of_tag {b : Body E} (h : b.tag = 13) : ∃ s, b = .userId s := by
  cases b <;> first | exact ⟨_, rfl⟩ | (exfalso; simp [Body.tag] at h)
  exfalso; rename_i n s; change 60 + n = 13 at h; omega

theorem userAttr_of_tag {b : Body E} (h : b.tag = 17) : ∃ s, b = .userAttr s := by
  cases b <;> first | exact ⟨_, rfl⟩ | (exfalso; simp [Body.tag] at h)
  exfalso; rename_i n s; change 60 + n = 17 at h; omega

theorem skipRevocations_sound (l r : List (Body E)) (h : skipRevocations l = some r) :
    ∃ revs, l = revs ++ r ∧ (∀ x ∈ revs, KeyRevocation x) ∧ noSig r := by
  induction l using skipRevocations.induct with
  | case1 s l hs ih =>
    rw [skipRevocations, if_pos hs] at h
    obtain ⟨revs, rfl, h2, h3⟩ := ih h
    refine ⟨.sig s :: revs, rfl, ?_, h3⟩
    intro x hx
    rcases List.mem_cons.mp hx with rfl | hx
    · exact ⟨s, rfl, hs⟩
    · exact h2 x hx
  | case2 s l hs => rw [skipRevocations, if_neg hs] at h; exact absurd h (by simp)
  | case3 l hl =>
    unfold skipRevocations at h
    split at h
    · exact absurd rfl (hl _ _)
    · obtain rfl := Option.some.inj h
      exact ⟨[], rfl, by simp, hl⟩

theorem skipRevocations_complete (revs r : List (Body E)) (h : ∀ x ∈ revs, KeyRevocation x) (hr : noSig r) :
    skipRevocations (revs ++ r) = some r := by
  induction revs with
  | nil =>
    unfold skipRevocations
    split
    · rename_i h; exact absurd h (hr _ _)
    · rfl
  | cons x revs ih =>
    obtain ⟨s, rfl, hs⟩ := h x (by simp)
    rw [List.cons_append, skipRevocations, if_pos hs]
    exact ih fun y hy => h y (by simp [hy])

theorem isCertification_iff (t : UInt8) : isCertification t = true ↔ 0x10 ≤ t ∧ t ≤ 0x13 := by
  simp only [isCertification, Bool.or_eq_true, beq_iff_eq]
  constructor
  · rintro (((rfl | rfl) | rfl) | rfl) <;> decide
  · rintro ⟨h1, h2⟩
    have h1 : 16 ≤ t.toNat := UInt8.le_iff_toNat_le.mp h1
    have h2 : t.toNat ≤ 19 := UInt8.le_iff_toNat_le.mp h2
    have : t.toNat = 16 ∨ t.toNat = 17 ∨ t.toNat = 18 ∨ t.toNat = 19 := by omega
    rcases this with e | e | e | e
    · exact Or.inl (Or.inl (Or.inl (UInt8.toNat_inj.mp e)))
    · exact Or.inl (Or.inl (Or.inr (UInt8.toNat_inj.mp e)))
    · exact Or.inl (Or.inr (UInt8.toNat_inj.mp e))
    · exact Or.inr (UInt8.toNat_inj.mp e)

/-- A signature allowed behind a user packet. -/
def UserSig (isId : Bool) (s : Body E) : Prop := Certification s ∨ (isId = true ∧ SigOf (· = 0x30) s)

theorem userSig_iff (isId : Bool) (s : Tag2 E) :
    UserSig isId (.sig s) ↔ (isCertification s.type || (isId && s.type == 0x30)) = true := by
  rw [Bool.or_eq_true, isCertification_iff, Bool.and_eq_true, beq_iff_eq]
  constructor
  · rintro (⟨s', h, hs⟩ | ⟨h0, s', h, hs⟩)
    · obtain rfl := Body.sig.inj h; exact Or.inl hs
    · obtain rfl := Body.sig.inj h; exact Or.inr ⟨h0, hs⟩
  · rintro (h | ⟨h0, h⟩)
    · exact Or.inl ⟨s, rfl, h⟩
    · exact Or.inr ⟨h0, s, rfl, h⟩

theorem skipCertifications_sound (isId : Bool) (l r : List (Body E)) (h : skipCertifications isId l = some r) :
    ∃ sigs, l = sigs ++ r ∧ (∀ x ∈ sigs, UserSig isId x) ∧ noSig r := by
  induction l using skipCertifications.induct (isId := isId) with
  | case1 s l hs ih =>
    rw [skipCertifications, if_pos hs] at h
    obtain ⟨sigs, rfl, h2, h3⟩ := ih h
    refine ⟨.sig s :: sigs, rfl, ?_, h3⟩
    intro x hx
    rcases List.mem_cons.mp hx with rfl | hx
    · exact (userSig_iff isId s).mpr hs
    · exact h2 x hx
  | case2 s l hs => rw [skipCertifications, if_neg hs] at h; exact absurd h (by simp)
  | case3 l hl =>
    unfold skipCertifications at h
    split at h
    · exact absurd rfl (hl _ _)
    · obtain rfl := Option.some.inj h
      exact ⟨[], rfl, by simp, hl⟩

theorem skipCertifications_complete (isId : Bool) (sigs r : List (Body E)) (h : ∀ x ∈ sigs, UserSig isId x) (hr : noSig r) :
    skipCertifications isId (sigs ++ r) = some r := by
  induction sigs with
  | nil =>
    unfold skipCertifications
    split
    · rename_i h; exact absurd h (hr _ _)
    · rfl
  | cons x sigs ih =>
    have hx := h x (by simp)
    obtain ⟨s, rfl⟩ : ∃ s, x = .sig s := by
      rcases hx with ⟨s, hs, -⟩ | ⟨-, s, hs, -⟩ <;> exact ⟨s, hs⟩
    rw [List.cons_append, skipCertifications, if_pos ((userSig_iff isId s).mp hx)]
    exact ih fun y hy => h y (by simp [hy])

theorem userBlock_iff (g : List (Body E)) :
    UserBlock g ↔ ∃ b sigs, g = b :: sigs ∧ (b.tag = 13 ∨ b.tag = 17) ∧ ∀ x ∈ sigs, UserSig (b.tag == 13) x := by
  constructor
  · rintro (⟨u, sigs, h⟩ | ⟨l, sigs, h⟩)
    · refine ⟨_, _, rfl, Or.inl rfl, fun x hx => ?_⟩
      rcases h x hx with h | h
      · exact Or.inl h
      · exact Or.inr ⟨rfl, h⟩
    · exact ⟨_, _, rfl, Or.inr rfl, fun x hx => Or.inl (h x hx)⟩
  · rintro ⟨b, sigs, rfl, hb | hb, h⟩
    · obtain ⟨u, rfl⟩ := userId_of_tag hb
      refine .id u sigs fun x hx => ?_
      rcases h x hx with h | ⟨-, h⟩
      · exact Or.inl h
      · exact Or.inr h
    · obtain ⟨u, rfl⟩ := userAttr_of_tag hb
      refine .attribute u sigs fun x hx => ?_
      rcases h x hx with h | ⟨h0, -⟩
      · exact h
      · exact absurd h0 (by simp [Body.tag])

theorem userLoop_sound (fuel : Nat) : ∀ (seen : Bool) (l : List (Body E)) (seen' : Bool) (r : List (Body E)),
    userLoop fuel seen l = .ok (some (seen', r)) →
    ∃ users : List (List (Body E)), l = users.flatten ++ r ∧ (∀ g ∈ users, UserBlock g) ∧
      (seen' = true ↔ seen = true ∨ ∃ g ∈ users, IdBlock g) ∧ noSig r ∧ noUser r := by
  induction fuel with
  | zero => intro seen l seen' r h; simp [userLoop] at h
  | succ fuel ih =>
    intro seen l seen' r h
    cases l with
    | nil => simp [userLoop] at h
    | cons b l =>
      unfold userLoop at h
      simp only at h
      split at h
      · exact absurd (Out.ok.inj h) (by simp)
      · rename_i hb
        have hb' : b.tag = 13 ∨ b.tag = 17 := by
          by_cases h13 : b.tag = 13
          · exact Or.inl h13
          · exact Or.inr (by by_contra h17; exact hb ⟨h13, h17⟩)
        have hid : ∀ sigs, (b.tag == 13) = true ↔ IdBlock (b :: sigs) := by
          intro sigs
          rw [beq_iff_eq]
          constructor
          · intro h13
            obtain ⟨u, rfl⟩ := userId_of_tag h13
            exact ⟨u, sigs, rfl⟩
          · rintro ⟨u, s, e⟩
            rw [(List.cons.inj e).1]; rfl
        split at h
        · exact absurd (Out.ok.inj h) (by simp)
        · rename_i hs
          obtain ⟨sigs, hl, h2, h3⟩ := skipCertifications_sound _ _ _ hs
          rw [List.append_nil] at hl
          subst hl
          obtain ⟨rfl, rfl⟩ := Prod.mk.inj (Option.some.inj (Out.ok.inj h))
          refine ⟨[b :: l], by simp, ?_, ?_, h3, by intro b r e; simp at e⟩
          · intro g hg
            obtain rfl := List.mem_singleton.mp hg
            exact (userBlock_iff _).mpr ⟨b, l, rfl, hb', h2⟩
          · rw [Bool.or_eq_true, hid l]
            simp
        · rename_i b' r' hs
          obtain ⟨sigs, rfl, h2, h3⟩ := skipCertifications_sound _ _ _ hs
          have hblock : UserBlock (b :: sigs) := (userBlock_iff _).mpr ⟨b, sigs, rfl, hb', h2⟩
          split at h
          · obtain ⟨users, e, hu, hse, hn1, hn2⟩ := ih _ _ _ _ h
            refine ⟨(b :: sigs) :: users, by simp [e], ?_, ?_, hn1, hn2⟩
            · intro g hg
              rcases List.mem_cons.mp hg with rfl | hg
              · exact hblock
              · exact hu g hg
            · rw [hse, Bool.or_eq_true, hid sigs]
              constructor
              · rintro ((h | h) | ⟨g, hg, h⟩)
                · exact Or.inl h
                · exact Or.inr ⟨_, List.mem_cons_self, h⟩
                · exact Or.inr ⟨g, List.mem_cons_of_mem _ hg, h⟩
              · rintro (h | ⟨g, hg, h⟩)
                · exact Or.inl (Or.inl h)
                · rcases List.mem_cons.mp hg with rfl | hg
                  · exact Or.inl (Or.inr h)
                  · exact Or.inr ⟨g, hg, h⟩
          · rename_i hnu
            obtain ⟨rfl, rfl⟩ := Prod.mk.inj (Option.some.inj (Out.ok.inj h))
            refine ⟨[b :: sigs], by simp, ?_, ?_, h3, ?_⟩
            · intro g hg
              obtain rfl := List.mem_singleton.mp hg
              exact hblock
            · rw [Bool.or_eq_true, hid sigs]; simp
            · intro x y e
              rw [← (List.cons.inj e).1]
              exact ⟨fun h => hnu (Or.inl h), fun h => hnu (Or.inr h)⟩

open Classical in
theorem userLoop_complete (users : List (List (Body E))) : ∀ (fuel : Nat) (seen : Bool) (r : List (Body E)), users ≠ [] →
    (∀ g ∈ users, UserBlock g) → noSig r → noUser r → users.length ≤ fuel →
    userLoop fuel seen (users.flatten ++ r) = .ok (some (seen || decide (∃ g ∈ users, IdBlock g), r)) := by
  induction users with
  | nil => intro _ _ _ h; exact absurd rfl h
  | cons g users ih =>
    intro fuel seen r _ hu h1 h2 hf
    obtain ⟨b, sigs, rfl, hb, hsig⟩ := (userBlock_iff g).mp (hu g (by simp))
    obtain ⟨fuel, rfl⟩ : ∃ k, fuel = k + 1 := ⟨fuel - 1, by rw [List.length_cons] at hf; omega⟩
    have hid : (b.tag == 13) = decide (IdBlock (b :: sigs)) := by
      rw [Bool.eq_iff_iff, beq_iff_eq, decide_eq_true_iff]
      constructor
      · intro h13
        obtain ⟨u, rfl⟩ := userId_of_tag h13
        exact ⟨u, sigs, rfl⟩
      · rintro ⟨u, s, e⟩
        rw [(List.cons.inj e).1]; rfl
    rw [List.flatten_cons, List.append_assoc, List.cons_append]
    unfold userLoop
    simp only
    rw [if_neg (by rintro ⟨ha, hb'⟩; exact hb.elim ha hb')]
    cases users with
    | nil =>
      rw [List.flatten_nil, List.nil_append, skipCertifications_complete _ _ _ hsig h1]
      cases r with
      | nil => simp [hid]
      | cons x y =>
        have := h2 x y rfl
        simp only
        rw [if_neg (by rintro (h | h); exact this.1 h; exact this.2 h), hid]
        simp
    | cons g' users =>
      obtain ⟨b', sigs', rfl, hb', -⟩ := (userBlock_iff g').mp (hu g' (by simp))
      have hns : noSig (((b' :: sigs') :: users).flatten ++ r) := by
        rw [List.flatten_cons, List.append_assoc, List.cons_append]
        apply noSig_of_tag
        rcases hb' with h | h <;> rw [h] <;> decide
      rw [skipCertifications_complete _ _ _ hsig hns]
      have e : ((b' :: sigs') :: users).flatten ++ r = b' :: (sigs' ++ (users.flatten ++ r)) := by simp
      rw [e]
      simp only
      rw [if_pos hb', ← e, ih fuel _ r (by simp) (fun g hg => hu g (List.mem_cons_of_mem _ hg)) h1 h2
        (by rw [List.length_cons] at hf; omega)]
      rw [hid, Bool.or_assoc]
      congr 4
      rw [Bool.eq_iff_iff]
      simp

theorem skipSubkeySigs_sound (l : List (Body E)) (b0 : Bool) :
    ∃ sigs, l = sigs ++ (skipSubkeySigs b0 l).2 ∧ (∀ s ∈ sigs, SigOf (fun _ => True) s) ∧ noSig (skipSubkeySigs b0 l).2 ∧
      ((skipSubkeySigs b0 l).1 = true ↔ b0 = true ∨ ∃ s ∈ sigs, SigOf (· = 0x18) s) := by
  induction l generalizing b0 with
  | nil => exact ⟨[], by simp [skipSubkeySigs], by simp, noSig_nil, by simp [skipSubkeySigs]⟩
  | cons x l ih =>
    by_cases hx : x.tag = 2
    · obtain ⟨s, rfl⟩ := sig_of_tag hx
      rw [skipSubkeySigs]
      obtain ⟨sigs, h1, h2, h3, h4⟩ := ih (b0 || s.type == 0x18)
      refine ⟨.sig s :: sigs, by rw [List.cons_append, ← h1], ?_, h3, ?_⟩
      · intro y hy
        rcases List.mem_cons.mp hy with rfl | hy
        · exact ⟨s, rfl, trivial⟩
        · exact h2 y hy
      · rw [h4, Bool.or_eq_true, beq_iff_eq]
        constructor
        · rintro ((h | h) | ⟨y, hy, h⟩)
          · exact Or.inl h
          · exact Or.inr ⟨_, List.mem_cons_self, s, rfl, h⟩
          · exact Or.inr ⟨y, List.mem_cons_of_mem _ hy, h⟩
        · rintro (h | ⟨y, hy, s', e, h⟩)
          · exact Or.inl (Or.inl h)
          · rcases List.mem_cons.mp hy with rfl | hy
            · obtain rfl := Body.sig.inj e
              exact Or.inl (Or.inr h)
            · exact Or.inr ⟨y, hy, s', e, h⟩
    · have hn := noSig_of_tag (r := l) hx
      have e : skipSubkeySigs b0 (x :: l) = (b0, x :: l) := by
        unfold skipSubkeySigs
        split
        · rename_i h; exact absurd h (hn _ _)
        · rfl
      rw [e]
      exact ⟨[], rfl, by simp, hn, by simp⟩

theorem skipSubkeySigs_complete (sigs r : List (Body E)) (b0 : Bool) (h : ∀ s ∈ sigs, SigOf (fun _ => True) s) (hr : noSig r)
    (hb : b0 = true ∨ ∃ s ∈ sigs, SigOf (· = 0x18) s) : skipSubkeySigs b0 (sigs ++ r) = (true, r) := by
  induction sigs generalizing b0 with
  | nil =>
    obtain rfl : b0 = true := by simpa using hb
    unfold skipSubkeySigs
    split
    · rename_i h; exact absurd h (hr _ _)
    · rfl
  | cons x sigs ih =>
    obtain ⟨s, rfl, -⟩ := h x (by simp)
    rw [List.cons_append, skipSubkeySigs]
    apply ih _ fun y hy => h y (by simp [hy])
    rw [Bool.or_eq_true, beq_iff_eq]
    rcases hb with h | ⟨y, hy, s', e, h⟩
    · exact Or.inl (Or.inl h)
    · rcases List.mem_cons.mp hy with rfl | hy
      · obtain rfl := Body.sig.inj e
        exact Or.inl (Or.inr h)
      · exact Or.inr ⟨y, hy, s', e, h⟩

theorem subkeyLoop_iff (subkey : Nat) (hsk : subkey ≠ 2) (v : UInt8) (fuel : Nat) : ∀ l : List (Body E), l.length < fuel →
    (∃ b, subkeyLoop subkey v fuel l = .ok b) ∧
    (subkeyLoop subkey v fuel l = .ok true ↔
      ∃ gs : List (List (Body E)), l = gs.flatten ∧ (∀ g ∈ gs, SubkeyBlock false subkey g) ∧ (gs ≠ [] → v ≠ 3)) := by
  induction fuel with
  | zero => intro l h; omega
  | succ fuel ih =>
    intro l hl
    unfold subkeyLoop
    cases l with
    | nil => exact ⟨⟨_, rfl⟩, fun _ => ⟨[], rfl, by simp, by simp⟩, fun _ => rfl⟩
    | cons b l =>
      simp only
      have nonempty : ∀ gs : List (List (Body E)), b :: l = gs.flatten → (∀ g ∈ gs, SubkeyBlock false subkey g) →
          ∃ sigs gs', gs = (b :: sigs) :: gs' ∧ l = sigs ++ gs'.flatten := by
        intro gs h hg
        cases gs with
        | nil => simp at h
        | cons g gs' =>
          obtain ⟨k, sigs, rfl, -⟩ := hg g (by simp)
          rw [List.flatten_cons, List.cons_append] at h
          obtain ⟨rfl, rfl⟩ := List.cons.inj h
          exact ⟨sigs, gs', rfl, rfl⟩
      by_cases hb : b.tag ≠ subkey
      · rw [if_pos hb]
        refine ⟨⟨_, rfl⟩, fun h => absurd (Out.ok.inj h) (by simp), ?_⟩
        rintro ⟨gs, h, hg, -⟩
        obtain ⟨sigs, gs', rfl, rfl⟩ := nonempty gs h hg
        obtain ⟨k, s, e, hk, -⟩ := hg _ List.mem_cons_self
        obtain ⟨rfl, rfl⟩ := List.cons.inj e
        exact absurd hk hb
      · rw [if_neg hb]
        have hb := not_not.mp hb
        by_cases hv : v = 3
        · rw [if_pos hv]
          refine ⟨⟨_, rfl⟩, fun h => absurd (Out.ok.inj h) (by simp), ?_⟩
          rintro ⟨gs, h, hg, h3⟩
          obtain ⟨sigs, gs', rfl, rfl⟩ := nonempty gs h hg
          exact absurd hv (h3 (by simp))
        · rw [if_neg hv]
          obtain ⟨sigs, hs1, hs2, hs3, hs4⟩ := skipSubkeySigs_sound l false
          rcases hsk2 : skipSubkeySigs false l with ⟨bd, r⟩
          rw [hsk2] at hs1 hs3 hs4
          simp only at hs1 hs3 hs4
          -- a decomposition of the list starts with the same block
          have unique : ∀ sigs' (gs' : List (List (Body E))), l = sigs' ++ gs'.flatten → (∀ s ∈ sigs', SigOf (fun _ => True) s) →
              (∃ s ∈ sigs', SigOf (· = 0x18) s) → (∀ g ∈ gs', SubkeyBlock false subkey g) → bd = true ∧ r = gs'.flatten := by
            intro sigs' gs' e h1 h2 h3
            have hn : noSig gs'.flatten := by
              cases gs' with
              | nil => exact noSig_nil
              | cons g gs' =>
                obtain ⟨k, s, rfl, hk, -⟩ := h3 g (by simp)
                rw [List.flatten_cons, List.cons_append]
                exact noSig_of_tag (by rw [hk]; exact hsk)
            have := skipSubkeySigs_complete sigs' gs'.flatten false h1 hn (Or.inr h2)
            rw [← e, hsk2] at this
            exact ⟨(Prod.mk.inj this).1, (Prod.mk.inj this).2⟩
          cases bd with
          | false =>
            simp only
            refine ⟨⟨_, rfl⟩, fun h => absurd (Out.ok.inj h) (by simp), ?_⟩
            rintro ⟨gs, h, hg, -⟩
            obtain ⟨sigs', gs', rfl, e⟩ := nonempty gs h hg
            obtain ⟨k, s, e2, -, h1, h2⟩ := hg _ List.mem_cons_self
            obtain ⟨rfl, rfl⟩ := List.cons.inj e2
            have h1' : ∀ s ∈ sigs', SigOf (fun _ => True) s := by
              intro s hs; obtain ⟨t, ht, -⟩ := h1 s hs; exact ⟨t, ht, trivial⟩
            exact absurd (unique _ _ e h1' h2 fun g hg' => hg g (by simp [hg'])).1 (by simp)
          | true =>
            simp only
            have hrl : r.length < fuel := by
              have := congrArg List.length hs1
              rw [List.length_append] at this
              rw [List.length_cons] at hl
              omega
            obtain ⟨i1, i2⟩ := ih r hrl
            refine ⟨i1, i2.trans ?_⟩
            constructor
            · rintro ⟨gs, rfl, hg, h3⟩
              refine ⟨(b :: sigs) :: gs, by rw [List.flatten_cons, List.cons_append, ← hs1], ?_, fun _ => hv⟩
              intro g hg'
              rcases List.mem_cons.mp hg' with rfl | hg'
              · refine ⟨b, sigs, rfl, hb, ?_, ?_⟩
                · intro s hs
                  obtain ⟨t, ht, -⟩ := hs2 s hs
                  exact ⟨t, ht, by simp⟩
                · simpa using hs4
              · exact hg g hg'
            · rintro ⟨gs, h, hg, -⟩
              obtain ⟨sigs', gs', rfl, e⟩ := nonempty gs h hg
              obtain ⟨k, s, e2, -, h1, h2⟩ := hg _ List.mem_cons_self
              obtain ⟨rfl, rfl⟩ := List.cons.inj e2
              have h1' : ∀ s ∈ sigs', SigOf (fun _ => True) s := by
                intro s hs; obtain ⟨t, ht, -⟩ := h1 s hs; exact ⟨t, ht, trivial⟩
              exact ⟨gs', (unique _ _ e h1' h2 fun g hg' => hg g (by simp [hg'])).2, fun g hg' => hg g (by simp [hg']),
                fun _ => hv⟩

theorem userLoop_outcome (fuel : Nat) : ∀ (seen : Bool) (l : List (Body E)), l.length < fuel →
    (∃ o, userLoop fuel seen l = .ok o) ∨ (userLoop fuel seen l = .ub ∧ l = []) := by
  induction fuel with
  | zero => intro _ l h; omega
  | succ fuel ih =>
    intro seen l hl
    unfold userLoop
    cases l with
    | nil => exact Or.inr ⟨rfl, rfl⟩
    | cons b l =>
      left
      simp only
      split
      · exact ⟨_, rfl⟩
      · split
        · exact ⟨_, rfl⟩
        · exact ⟨_, rfl⟩
        · rename_i b' r' hs
          split
          · obtain ⟨sigs, e, -⟩ := skipCertifications_sound _ _ _ hs
            have := congrArg List.length e
            simp only [List.length_append, List.length_cons] at this hl
            rcases ih (seen || b.tag == 13) (b' :: r') (by rw [List.length_cons]; omega) with h | ⟨_, h⟩
            · exact h
            · exact absurd h (by simp)
          · exact ⟨_, rfl⟩

end

section
variable {E : Type}

theorem keyPart_of_tag {b : Body E} {key : Nat} (hk : key = 5 ∨ key = 6) (h : b.tag = key) : ∃ k, b.keyPart = some k ∧
    (b = .publicKey k ∨ ∃ t : Tag5, b = .secretKey t ∧ t.key = k) := by
  subst h
  cases b with
  | secretKey t => exact ⟨_, rfl, Or.inr ⟨t, rfl, rfl⟩⟩
  | publicKey k => exact ⟨_, rfl, Or.inl rfl⟩
  | priv n s => exfalso; simp only [Body.tag] at hk; omega
  | _ => exfalso; simp [Body.tag] at hk

theorem meaningfulBodies_eq {kind : KeyKind} {key subkey : Nat} (ht : tags kind = some (key, subkey)) (p : Body E)
    (hp : p.tag = key) (r : List (Body E)) (hr : r ≠ []) (k : KeyPkt) (hk : p.keyPart = some k) :
    meaningfulBodies kind (p :: r) = (match skipRevocations r with
      | none => .ok false
      | some r => do
        match ← userLoop (r.length + 1) false r with
        | none => return false
        | some (seen, r) => if !seen then return false else subkeyLoop subkey k.version (r.length + 1) r) := by
  have hl : ¬ (p :: r).length < 2 := by
    have := List.length_pos_iff.mpr hr
    rw [List.length_cons]; omega
  rw [meaningfulBodies, ht]
  simp only
  rw [if_neg hl, if_neg (not_not.mpr hp), hk]
  rfl

theorem tags_cases {kind : KeyKind} {key subkey : Nat} (ht : tags kind = some (key, subkey)) :
    (key = 5 ∨ key = 6) ∧ subkey ≠ 2 ∧ (subkey ≠ 13 ∧ subkey ≠ 17) := by
  cases kind with
  | pub => obtain ⟨rfl, rfl⟩ := Prod.mk.inj (Option.some.inj ht); decide
  | sec => obtain ⟨rfl, rfl⟩ := Prod.mk.inj (Option.some.inj ht); decide
  | other => simp [tags] at ht

/-- For public and for secret keys the check says yes exactly for the layouts of RFC 4880 (with the signatures behind a subkey
of any types as long as one is a subkey binding). Public and secret key packets do not mix: all key packets have the tags of
the kind. -/
theorem C30_meaningful_iff (kind : KeyKind) (key subkey : Nat) (ht : tags kind = some (key, subkey)) (l : List (Body E)) :
    meaningfulBodies kind l = .ok true ↔ TransferableKey false key subkey l := by
  obtain ⟨hkey, hs2, hsu⟩ := tags_cases ht
  constructor
  · intro h
    cases l with
    | nil => rw [meaningfulBodies, ht] at h; simp at h
    | cons p r =>
      by_cases hr : r = []
      · subst hr; rw [meaningfulBodies, ht] at h; simp at h
      by_cases hp : p.tag = key
      · obtain ⟨k, hk1, hk2⟩ := keyPart_of_tag hkey hp
        rw [meaningfulBodies_eq ht p hp r hr k hk1] at h
        split at h
        · exact absurd (Out.ok.inj h) (by simp)
        · rename_i r1 hr1
          obtain ⟨revs, rfl, h1, -⟩ := skipRevocations_sound _ _ hr1
          obtain ⟨o, ho, h⟩ := Out.bind_eq_ok.mp h
          cases o with
          | none => exact absurd (Out.ok.inj h) (by simp)
          | some o =>
            obtain ⟨seen, r2⟩ := o
            obtain ⟨users, rfl, hu, hid, -, -⟩ := userLoop_sound _ _ _ _ _ ho
            cases seen with
            | false => exact absurd (Out.ok.inj h) (by simp)
            | true =>
              have hid : ∃ g ∈ users, IdBlock g := by simpa using hid
              simp only [Bool.not_true, Bool.false_eq_true, if_false] at h
              obtain ⟨gs, rfl, hg, hv⟩ := (subkeyLoop_iff subkey hs2 k.version _ r2 (by omega)).2.mp h
              refine ⟨p, revs, users, gs, by simp, hp, h1, hu, hid, hg, ?_⟩
              intro hne k' hk'
              have : k' = k := by
                rcases hk2 with rfl | ⟨t, rfl, rfl⟩ <;> rcases hk' with e | ⟨t', e, e'⟩
                · exact (Body.publicKey.inj e).symm
                · simp at e
                · simp at e
                · rw [← e', Body.secretKey.inj e]
              rw [this]; exact hv hne
      · rw [meaningfulBodies, ht] at h
        simp only at h
        split at h
        · exact absurd (Out.ok.inj h) (by simp)
        · try rw [if_pos hp] at h
          exact absurd (Out.ok.inj h) (by simp)
  · rintro ⟨p, revs, users, gs, rfl, hp, hrev, hu, ⟨g0, hg0, hid⟩, hg, hv⟩
    obtain ⟨k, hk1, hk2⟩ := keyPart_of_tag hkey hp
    have hune : users ≠ [] := by rintro rfl; simp at hg0
    have hgs : noSig gs.flatten ∧ noUser gs.flatten := by
      cases gs with
      | nil => exact ⟨noSig_nil, by intro b r e; simp at e⟩
      | cons g gs =>
        obtain ⟨x, s, rfl, hx, -⟩ := hg g (by simp)
        rw [List.flatten_cons, List.cons_append]
        refine ⟨noSig_of_tag (by rw [hx]; exact hs2), ?_⟩
        intro b r e
        rw [← (List.cons.inj e).1, hx]
        exact hsu
    have hus : noSig (users.flatten ++ gs.flatten) ∧ users.flatten ++ gs.flatten ≠ [] := by
      cases users with
      | nil => exact absurd rfl hune
      | cons g users =>
        obtain ⟨b, sigs, rfl, hb, -⟩ := (userBlock_iff g).mp (hu g (by simp))
        rw [List.flatten_cons, List.append_assoc, List.cons_append]
        refine ⟨noSig_of_tag ?_, by simp⟩
        rcases hb with h | h <;> rw [h] <;> decide
    rw [List.append_assoc, meaningfulBodies_eq ht p hp _ (by simp [hus.2]) k hk1,
      skipRevocations_complete _ _ hrev hus.1]
    simp only
    classical
    have hlen : users.length ≤ (users.flatten ++ gs.flatten).length + 1 := by
      have : users.length ≤ users.flatten.length := by
        clear hune hg0 hid hus
        induction users with
        | nil => simp
        | cons g users ih =>
          obtain ⟨b, sigs, rfl, -⟩ := (userBlock_iff g).mp (hu g (by simp))
          have := ih fun g hg => hu g (by simp [hg])
          simp only [List.length_cons, List.flatten_cons, List.length_append]
          omega
      rw [List.length_append]; omega
    rw [userLoop_complete users _ false gs.flatten hune hu hgs.1 hgs.2 hlen, Out.ok_bind]
    have : decide (∃ g ∈ users, IdBlock g) = true := decide_eq_true ⟨g0, hg0, hid⟩
    simp only [this, Bool.or_true, Bool.not_true, Bool.false_eq_true, if_false]
    exact (subkeyLoop_iff subkey hs2 k.version _ _ (by omega)).2.mpr ⟨gs, rfl, hg, fun hne => hv hne k hk2⟩

/-- Objects of any other type are no keys. -/
theorem C30_other_types (l : List (Body E)) : meaningfulBodies .other l = .ok false := rfl

/-- The check always ends. It answers yes or no, except for a primary key followed by one or more key revocations and nothing
else, where it reads the element behind the last one of the packet vector. -/
theorem C30_outcome (kind : KeyKind) (key subkey : Nat) (ht : tags kind = some (key, subkey)) (l : List (Body E)) :
    (∃ b, meaningfulBodies kind l = .ok b) ∨ (meaningfulBodies kind l = .ub ∧
      ∃ p revs, l = p :: revs ∧ p.tag = key ∧ revs ≠ [] ∧ ∀ r ∈ revs, KeyRevocation r) := by
  obtain ⟨hkey, hs2, -⟩ := tags_cases ht
  cases l with
  | nil => left; rw [meaningfulBodies, ht]; exact ⟨_, rfl⟩
  | cons p r =>
    by_cases hr : r = []
    · subst hr; left; rw [meaningfulBodies, ht]; exact ⟨_, rfl⟩
    by_cases hp : p.tag = key
    · obtain ⟨k, hk1, hk2⟩ := keyPart_of_tag hkey hp
      rw [meaningfulBodies_eq ht p hp r hr k hk1]
      split
      · exact Or.inl ⟨_, rfl⟩
      · rename_i r1 hr1
        obtain ⟨revs, rfl, h1, -⟩ := skipRevocations_sound _ _ hr1
        rcases userLoop_outcome (r1.length + 1) false r1 (by omega) with ⟨o, ho⟩ | ⟨ho, rfl⟩
        · left
          rw [ho, Out.ok_bind]
          cases o with
          | none => exact ⟨_, rfl⟩
          | some o =>
            obtain ⟨seen, r2⟩ := o
            simp only
            cases seen with
            | false => exact ⟨_, rfl⟩
            | true => exact (subkeyLoop_iff subkey hs2 k.version _ r2 (by omega)).1
        · right
          rw [ho]
          refine ⟨rfl, p, revs, by simp, hp, by simpa using hr, h1⟩
    · left
      rw [meaningfulBodies, ht]
      simp only
      split
      · exact ⟨_, rfl⟩
      · exact ⟨_, rfl⟩

/-- That case does read out of range: every revoked key whose user IDs were stripped. -/
theorem C30_stripped_ub (kind : KeyKind) (key subkey : Nat) (ht : tags kind = some (key, subkey)) (p : Body E)
    (revs : List (Body E)) (hp : p.tag = key) (hne : revs ≠ []) (h : ∀ r ∈ revs, KeyRevocation r) :
    meaningfulBodies kind (p :: revs) = .ub := by
  obtain ⟨k, hk1, -⟩ := keyPart_of_tag (tags_cases ht).1 hp
  have := skipRevocations_complete revs [] h noSig_nil
  rw [List.append_nil] at this
  rw [meaningfulBodies_eq ht p hp revs hne k hk1, this]
  rfl

/-- RFC 4880 allows only the binding signature and a revocation behind a subkey; the check accepts signatures of every type
there, once a binding is present. -/
theorem C30_subkey_signatures_fails (kind : KeyKind) (key subkey : Nat) (ht : tags kind = some (key, subkey))
    (l : List (Body E)) (b : Body E) (hb : b.tag = subkey) (bind s : Tag2 E) (hbind : bind.type = 0x18) (hs : s.type ≠ 0x18)
    (hs' : s.type ≠ 0x28) (h : meaningfulBodies kind l = .ok true) (hv : ∀ p r, l = p :: r → ∀ k, p.keyPart = some k → k.version ≠ 3) :
    meaningfulBodies kind (l ++ [b, .sig bind, .sig s]) = .ok true ∧
      ¬ SubkeyBlock true subkey [b, .sig bind, .sig s] := by
  constructor
  · rw [C30_meaningful_iff kind key subkey ht] at h ⊢
    obtain ⟨p, revs, users, gs, rfl, hp, hrev, hu, hid, hg, hv'⟩ := h
    refine ⟨p, revs, users, gs ++ [[b, .sig bind, .sig s]], by simp, hp, hrev, hu, hid, ?_, ?_⟩
    · intro g hg'
      rcases List.mem_append.mp hg' with hg' | hg'
      · exact hg g hg'
      · obtain rfl := List.mem_singleton.mp hg'
        refine ⟨b, _, rfl, hb, ?_, .sig bind, by simp, bind, rfl, hbind⟩
        intro x hx
        simp only [List.mem_cons, List.not_mem_nil, or_false] at hx
        rcases hx with rfl | rfl
        · exact ⟨_, rfl, by simp⟩
        · exact ⟨_, rfl, by simp⟩
    · intro _ k hk
      refine hv p _ rfl k ?_
      rcases hk with rfl | ⟨t, rfl, rfl⟩ <;> rfl
  · rintro ⟨k, sigs, e, -, h1, -⟩
    obtain ⟨rfl, rfl⟩ := List.cons.inj e
    obtain ⟨t, ht, h2⟩ := h1 (.sig s) (by simp)
    obtain rfl := Body.sig.inj ht
    rcases h2 rfl with h2 | h2
    · exact hs h2
    · exact hs' h2

/-- Signatures behind a subkey restricted to bindings and revocations: such keys are accepted too (the RFC's layouts are a part
of the accepted ones). -/
theorem C30_accepts_strict (kind : KeyKind) (key subkey : Nat) (ht : tags kind = some (key, subkey)) (l : List (Body E))
    (h : TransferableKey true key subkey l) : meaningfulBodies kind l = .ok true := by
  rw [C30_meaningful_iff kind key subkey ht]
  obtain ⟨p, revs, users, gs, rfl, hp, hrev, hu, hid, hg, hv⟩ := h
  refine ⟨p, revs, users, gs, rfl, hp, hrev, hu, hid, ?_, hv⟩
  intro g hg'
  obtain ⟨k, sigs, rfl, hk, h1, h2⟩ := hg g hg'
  exact ⟨k, sigs, rfl, hk, fun s hs => by obtain ⟨t, ht, -⟩ := h1 s hs; exact ⟨t, ht, by simp⟩, h2⟩

end

/-- A signature of a given type. -/
def c30Sig (t : UInt8) : Tag2 Empty := ⟨4, t, 1, 8, [5], [0, 0], 0, [], [], []⟩

/-- A revoked public key with a certified user ID, an attribute and a bound subkey. -/
def c30Key : List (Body Empty) :=
  [.publicKey ⟨4, 1500000000, 1, [0xffee, 17], 0⟩, .sig (c30Sig 0x20), .userId [97], .sig (c30Sig 0x13), .sig (c30Sig 0x30),
    .userAttr [], .sig (c30Sig 0x10), .publicSubkey ⟨4, 1500000000, 1, [0xffee, 17], 0⟩, .sig (c30Sig 0x18)]

example : meaningfulBodies .pub c30Key = .ok true ∧ KeyObj.tags .pub = some (6, 14) := ⟨by decide +kernel, rfl⟩
example : meaningfulBodies .sec c30Key = .ok false := by decide +kernel

end OpenPGP
