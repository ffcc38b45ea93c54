import Verif.Props.C30

/-!
# Inserting signatures into transferable keys
-/
namespace OpenPGP
open Rfc
variable {E : Type}

/-- A signature body. -/
def IsSig (b : Body E) : Prop := ∃ s, b = .sig s

theorem userBlock_split {g : List (Body E)} (h : UserBlock g) :
    ∃ b sigs, g = b :: sigs ∧ (b.tag = 13 ∨ b.tag = 17) ∧ (∀ x ∈ sigs, IsSig x) := by
  rcases h with ⟨u, sigs, h⟩ | ⟨l, sigs, h⟩
  · refine ⟨_, _, rfl, Or.inl rfl, fun x hx => ?_⟩
    rcases h x hx with ⟨s, hs, -⟩ | ⟨s, hs, -⟩ <;> exact ⟨s, hs⟩
  · refine ⟨_, _, rfl, Or.inr rfl, fun x hx => ?_⟩
    obtain ⟨s, hs, -⟩ := h x hx
    exact ⟨s, hs⟩

theorem subkeyBlock_split {strict : Bool} {subkey : Nat} {g : List (Body E)} (h : SubkeyBlock strict subkey g) :
    ∃ b sigs, g = b :: sigs ∧ b.tag = subkey ∧ (∀ x ∈ sigs, IsSig x) := by
  obtain ⟨k, sigs, rfl, hk, hs, -⟩ := h
  refine ⟨k, sigs, rfl, hk, fun x hx => ?_⟩
  obtain ⟨s, hs, -⟩ := hs x hx
  exact ⟨s, hs⟩

/-- Groups: a head that is no signature, then signatures. -/
def Groups (gs : List (List (Body E))) : Prop := ∀ g ∈ gs, ∃ b sigs, g = b :: sigs ∧ ¬ IsSig b ∧ ∀ x ∈ sigs, IsSig x

/-- A body that is no signature stands at the head of a group, and the signatures behind it are in this group. -/
theorem groups_split {gs : List (List (Body E))} (hg : Groups gs) :
    ∀ {pre sigs rest : List (Body E)} {b : Body E}, gs.flatten = pre ++ b :: (sigs ++ rest) → ¬ IsSig b → (∀ x ∈ sigs, IsSig x) →
    ∃ gs1 gs2 more, gs = gs1 ++ (b :: (sigs ++ more)) :: gs2 ∧ pre = gs1.flatten ∧ rest = more ++ gs2.flatten := by
  induction gs with
  | nil => intro pre sigs rest b h; simp at h
  | cons g gs ih =>
    intro pre sigs rest b h hb hs
    obtain ⟨c, cs, rfl, hc, hcs⟩ := hg g (by simp)
    have hg' : Groups gs := fun x hx => hg x (by simp [hx])
    rw [List.flatten_cons] at h
    cases pre with
    | nil =>
      simp only [List.nil_append, List.cons_append, List.cons.injEq] at h
      obtain ⟨rfl, h⟩ := h
      rcases List.append_eq_append_iff.mp h with ⟨as, h1, h2⟩ | ⟨bs, h1, h2⟩
      · -- the signatures go beyond the group
        cases as with
        | nil =>
          simp only [List.append_nil] at h1
          simp only [List.nil_append] at h2
          exact ⟨[], gs, [], by simp [h1], rfl, by simpa using h2.symm⟩
        | cons a as =>
          cases gs with
          | nil => simp at h2
          | cons g2 gs =>
            obtain ⟨d, ds, rfl, hd, -⟩ := hg' g2 (by simp)
            simp only [List.flatten_cons, List.cons_append, List.cons.injEq] at h2
            exact absurd (hs a (by rw [h1]; simp)) (by rw [← h2.1]; exact hd)
      · exact ⟨[], gs, bs, by simp [h1], rfl, h2⟩
    | cons p pre =>
      simp only [List.cons_append, List.cons.injEq] at h
      obtain ⟨rfl, h⟩ := h
      rcases List.append_eq_append_iff.mp h with ⟨as, h1, h2⟩ | ⟨bs, h1, h2⟩
      · obtain ⟨gs1, gs2, more, e1, e2, e3⟩ := ih hg' h2 hb hs
        exact ⟨(c :: cs) :: gs1, gs2, more, by simp [e1], by simp [h1, e2], e3⟩
      · cases bs with
        | nil =>
          simp only [List.append_nil] at h1
          simp only [List.nil_append] at h2
          obtain ⟨gs1, gs2, more, e1, e2, e3⟩ := ih hg' (pre := []) h2.symm hb hs
          exact ⟨(c :: cs) :: gs1, gs2, more, by simp [e1], by simp [h1, ← e2], e3⟩
        | cons x bs =>
          simp only [List.cons_append, List.cons.injEq] at h2
          exact absurd (hcs x (by rw [h1]; simp)) (by rw [← h2.1]; exact hb)

theorem not_isSig_of_tag {b : Body E} (h : b.tag ≠ 2) : ¬ IsSig b := by
  rintro ⟨s, rfl⟩
  exact h rfl

theorem groups_users {users : List (List (Body E))} (h : ∀ g ∈ users, UserBlock g) : Groups users := by
  intro g hg
  obtain ⟨b, sigs, e, ht, hs⟩ := userBlock_split (h g hg)
  exact ⟨b, sigs, e, not_isSig_of_tag (by omega), hs⟩

theorem groups_subkeys {strict : Bool} {subkey : Nat} (hk : subkey ≠ 2) {gs : List (List (Body E))} (h : ∀ g ∈ gs, SubkeyBlock strict subkey g) :
    Groups gs := by
  intro g hg
  obtain ⟨b, sigs, e, ht, hs⟩ := subkeyBlock_split (h g hg)
  exact ⟨b, sigs, e, not_isSig_of_tag (by omega), hs⟩

/-- In a transferable key, a body behind the primary key that is no signature stands at the head of a group of user or subkey packets. -/
theorem transferable_split {strict : Bool} {key subkey : Nat} (hk : subkey ≠ 2) {p b : Body E} {pre sigs rest : List (Body E)}
    (h : TransferableKey strict key subkey (p :: (pre ++ b :: (sigs ++ rest)))) (hb : ¬ IsSig b) (hs : ∀ x ∈ sigs, IsSig x) :
    ∃ revs users subkeys gs1 gs2 more, (∀ r ∈ revs, KeyRevocation r) ∧ (∀ g ∈ users, UserBlock g) ∧ (∃ g ∈ users, IdBlock g) ∧
      (∀ g ∈ subkeys, SubkeyBlock strict subkey g) ∧ p.tag = key ∧
      (subkeys ≠ [] → ∀ k, (p = .publicKey k ∨ ∃ t : Tag5, p = .secretKey t ∧ t.key = k) → k.version ≠ 3) ∧
      users ++ subkeys = gs1 ++ (b :: (sigs ++ more)) :: gs2 ∧ pre = revs ++ gs1.flatten ∧ rest = more ++ gs2.flatten := by
  obtain ⟨p', revs, users, subkeys, e, hp, hr, hu, hid, hsub, hv⟩ := h
  obtain ⟨rfl, e2⟩ := List.cons.inj e
  have hg : Groups (users ++ subkeys) := by
    intro g hg
    rcases List.mem_append.mp hg with hg | hg
    · exact groups_users hu g hg
    · exact groups_subkeys hk hsub g hg
  rw [List.append_assoc, ← List.flatten_append] at e2
  rcases List.append_eq_append_iff.mp e2 with ⟨as, h1, h2⟩ | ⟨bs, h1, h2⟩
  · cases as with
    | nil =>
      simp only [List.nil_append] at h2
      obtain ⟨gs1, gs2, more, e1, e2, e3⟩ := groups_split hg (pre := []) h2.symm hb hs
      simp only [List.append_nil] at h1
      exact ⟨revs, users, subkeys, gs1, gs2, more, hr, hu, hid, hsub, hp, hv, e1, by simp [h1, ← e2], e3⟩
    | cons a as =>
      simp only [List.cons_append, List.cons.injEq] at h2
      obtain ⟨s, hs, -⟩ := hr a (by rw [h1]; simp)
      exact absurd (show IsSig b from ⟨s, h2.1.trans hs⟩) hb
  · obtain ⟨gs1, gs2, more, e1, e2, e3⟩ := groups_split hg h2 hb hs
    exact ⟨revs, users, subkeys, gs1, gs2, more, hr, hu, hid, hsub, hp, hv, e1, by rw [h1, e2], e3⟩

/-- A certification or certification revocation can be added behind a user ID and some of its signatures. -/
theorem transferable_insert_user {strict : Bool} {key subkey : Nat} (hk : subkey ≠ 2 ∧ subkey ≠ 13) {p : Body E} {u : Bytes} {x : Body E}
    {pre sigs rest : List (Body E)} (h : TransferableKey strict key subkey (p :: (pre ++ .userId u :: (sigs ++ rest))))
    (hs : ∀ x ∈ sigs, IsSig x) (hx : Certification x ∨ SigOf (· = 0x30) x) :
    TransferableKey strict key subkey (p :: (pre ++ .userId u :: (sigs ++ x :: rest))) := by
  obtain ⟨revs, users, subkeys, gs1, gs2, more, hr, hu, hid, hsub, hp, hv, e, rfl, rfl⟩ :=
    transferable_split hk.1 h (by rintro ⟨s, hs⟩; cases hs) hs
  have hblock : ∀ {w : List (List (Body E))}, (∀ g ∈ w, UserBlock g) → (.userId u :: (sigs ++ more)) ∈ w →
      UserBlock (.userId u :: (sigs ++ x :: more)) := by
    intro w hw hm
    have := hw _ hm
    generalize hg : (Body.userId u :: (sigs ++ more)) = g at this
    rcases this with ⟨u', sigs', h'⟩ | ⟨l, sigs', h'⟩
    · obtain ⟨-, rfl⟩ := List.cons.inj hg
      refine .id u _ ?_
      intro y hy
      rcases List.mem_append.mp hy with hy | hy
      · exact h' y (by simp [hy])
      · rcases List.mem_cons.mp hy with rfl | hy
        · exact hx
        · exact h' y (by simp [hy])
    · exact absurd (List.cons.inj hg).1 (by simp)
  rcases List.append_eq_append_iff.mp e with ⟨as, h1, h2⟩ | ⟨bs, h1, h2⟩
  · -- among the subkeys: impossible
    obtain ⟨b, sg, e', ht, -⟩ := subkeyBlock_split (hsub _ (show (Body.userId u :: (sigs ++ more)) ∈ subkeys by rw [h2]; simp))
    obtain ⟨rfl, -⟩ := List.cons.inj e'
    exact absurd ht.symm hk.2
  · cases bs with
    | nil =>
      simp only [List.nil_append] at h2
      obtain ⟨b, sg, e', ht, -⟩ := subkeyBlock_split (hsub _ (show (Body.userId u :: (sigs ++ more)) ∈ subkeys by rw [← h2]; simp))
      obtain ⟨rfl, -⟩ := List.cons.inj e'
      exact absurd ht.symm hk.2
    | cons g bs =>
      simp only [List.cons_append, List.cons.injEq] at h2
      obtain ⟨rfl, rfl⟩ := h2
      refine ⟨p, revs, gs1 ++ (.userId u :: (sigs ++ x :: more)) :: bs, subkeys, by simp, hp, hr, ?_, ?_, hsub, hv⟩
      · intro g hg
        rcases List.mem_append.mp hg with hg | hg
        · exact hu g (by rw [h1]; simp [hg])
        · rcases List.mem_cons.mp hg with rfl | hg
          · exact hblock hu (by rw [h1]; simp)
          · exact hu g (by rw [h1]; simp [hg])
      · exact ⟨.userId u :: (sigs ++ x :: more), by simp, u, _, rfl⟩

/-- Any signature can be added behind a subkey and some of its signatures, if their types are not checked. -/
theorem transferable_insert_subkey {key subkey : Nat} (hk : subkey ≠ 2 ∧ subkey ≠ 13 ∧ subkey ≠ 17) {p b x : Body E} (hb : b.tag = subkey)
    {pre sigs rest : List (Body E)} (h : TransferableKey false key subkey (p :: (pre ++ b :: (sigs ++ rest))))
    (hs : ∀ x ∈ sigs, IsSig x) (hx : IsSig x) : TransferableKey false key subkey (p :: (pre ++ b :: (sigs ++ x :: rest))) := by
  obtain ⟨revs, users, subkeys, gs1, gs2, more, hr, hu, hid, hsub, hp, hv, e, rfl, rfl⟩ :=
    transferable_split hk.1 h (not_isSig_of_tag (by rw [hb]; exact hk.1)) hs
  have nouser : (b :: (sigs ++ more)) ∉ users := by
    intro hm
    obtain ⟨c, sg, e', ht, -⟩ := userBlock_split (hu _ hm)
    obtain ⟨rfl, -⟩ := List.cons.inj e'
    rw [hb] at ht
    exact absurd ht (by simp [hk])
  have main : ∀ as : List (List (Body E)), subkeys = as ++ (b :: (sigs ++ more)) :: gs2 → gs1 = users ++ as →
      TransferableKey false key subkey (p :: (revs ++ gs1.flatten ++ b :: (sigs ++ x :: (more ++ gs2.flatten)))) := by
    rintro as rfl rfl
    refine ⟨p, revs, users, as ++ (b :: (sigs ++ x :: more)) :: gs2, by simp, hp, hr, hu, hid, ?_, fun _ => hv (by simp)⟩
    intro g hg
    rcases List.mem_append.mp hg with hg | hg
    · exact hsub g (by simp [hg])
    · rcases List.mem_cons.mp hg with rfl | hg
      · obtain ⟨k, sg, e', hkt, hsg, y, hy, hy18⟩ := hsub (b :: (sigs ++ more)) (by simp)
        obtain ⟨rfl, rfl⟩ := List.cons.inj e'
        refine ⟨b, _, rfl, hkt, ?_, y, ?_, hy18⟩
        · intro z hz
          rcases List.mem_append.mp hz with hz | hz
          · exact hsg z (by simp [hz])
          · rcases List.mem_cons.mp hz with rfl | hz
            · obtain ⟨s, rfl⟩ := hx
              exact ⟨s, rfl, by simp⟩
            · exact hsg z (by simp [hz])
        · rcases List.mem_append.mp hy with hy | hy <;> simp [hy]
      · exact hsub g (by simp [hg])
  rcases List.append_eq_append_iff.mp e with ⟨as, h1, h2⟩ | ⟨bs, h1, h2⟩
  · exact main as h2 h1
  · cases bs with
    | nil =>
      simp only [List.append_nil] at h1
      simp only [List.nil_append] at h2
      exact main [] h2.symm (by simp [h1])
    | cons g bs =>
      simp only [List.cons_append, List.cons.injEq] at h2
      exact absurd (by rw [h1, ← h2.1]; simp) nouser

/-- A key revocation can be added behind the primary key. -/
theorem transferable_insert_revocation {strict : Bool} {key subkey : Nat} {p x : Body E} {rest : List (Body E)}
    (h : TransferableKey strict key subkey (p :: rest)) (hx : KeyRevocation x) : TransferableKey strict key subkey (p :: x :: rest) := by
  obtain ⟨p', revs, users, subkeys, e, hp, hr, hu, hid, hsub, hv⟩ := h
  obtain ⟨rfl, rfl⟩ := List.cons.inj e
  refine ⟨p, x :: revs, users, subkeys, by simp, hp, ?_, hu, hid, hsub, hv⟩
  intro r hm
  rcases List.mem_cons.mp hm with rfl | hm
  · exact hx
  · exact hr r hm

end OpenPGP
