import Verif.Model.Edit
import Verif.Props.C38

/-!
# C70: changing a packet with its setters

`set_keyid` of a signature works as expected and leaves what is signed alone. `set_time` replaces the first creation time although `get_times`
reports the last one, and both drop the critical bit. `Tag8::set_comp` keeps the contents, but breaks the packet if it throws. The size a secret key
reports after any of its setters is wrong for every protected key.
-/
namespace OpenPGP
variable {E : Type}

/-! ## Specification -/

/-- The creation times a list of subpackets states, in order. -/
def creations (l : List (Sub E)) : List Nat :=
  l.filterMap fun s => match s.body with
    | .sigTime t => some t
    | _ => none

/-- The issuers a list of subpackets names, in order. -/
def issuers (l : List (Sub E)) : List Bytes :=
  l.filterMap fun s => match s.body with
    | .issuer k => some k
    | _ => none

/-- `l` with its first entry replaced, or with the entry alone if there is none. -/
def setHead {α : Type} (x : α) : List α → List α
  | [] => [x]
  | _ :: l => x :: l

/-! ## Signatures -/

theorem type_eq_two {b : SubBody E} : (b.type == 2) = true ↔ ∃ t, b = .sigTime t := by
  cases b <;> simp [SubBody.type]

theorem type_eq_sixteen {b : SubBody E} : (b.type == 16) = true ↔ ∃ k, b = .issuer k := by
  cases b <;> simp [SubBody.type]

theorem creations_append (l m : List (Sub E)) : creations (l ++ m) = creations l ++ creations m := List.filterMap_append

theorem creations_replace (t : Nat) (c : Bool) (l : List (Sub E)) :
    creations (Tag2.replaceFirst (fun x => x.body.type == 2) ⟨c, .sigTime t⟩ l) = setHead t (creations l) := by
  induction l with
  | nil => rfl
  | cons a l ih =>
    unfold Tag2.replaceFirst
    by_cases h : (a.body.type == 2) = true
    · rw [if_pos h]
      obtain ⟨t0, ht⟩ := type_eq_two.mp h
      simp [creations, ht, setHead]
    · rw [if_neg h]
      have hn : (match a.body with | .sigTime t => some t | _ => none) = none := by
        split
        · rename_i t0 hb; exact absurd (type_eq_two.mpr ⟨t0, hb⟩) h
        · rfl
      rw [show creations (a :: l) = creations l by simp only [creations, List.filterMap_cons, hn]]
      rw [← ih]
      simp only [creations, List.filterMap_cons, hn]

theorem replaceFirst_others {α : Type} (p : α → Bool) (x : α) (hx : p x = true) (l : List α) :
    (Tag2.replaceFirst p x l).filter (fun a => !p a) = l.filter (fun a => !p a) := by
  induction l with
  | nil => simp [Tag2.replaceFirst, hx]
  | cons a l ih =>
    unfold Tag2.replaceFirst
    by_cases h : p a = true
    · rw [if_pos h]; simp [h, hx]
    · rw [if_neg h, List.filter_cons, List.filter_cons, ih]

theorem replaceFirst_mid {α : Type} (p : α → Bool) (x a : α) (pre post : List α) (hpre : ∀ y ∈ pre, p y = false) (ha : p a = true) :
    Tag2.replaceFirst p x (pre ++ a :: post) = pre ++ x :: post := by
  induction pre with
  | nil => simp [Tag2.replaceFirst, ha]
  | cons y pre ih =>
    rw [List.cons_append, Tag2.replaceFirst, if_neg (by simp [hpre y (by simp)]), ih (fun z hz => hpre z (by simp [hz])), List.cons_append]

theorem replaceFirst_none {α : Type} (p : α → Bool) (x : α) (l : List α) (hl : ∀ y ∈ l, p y = false) : Tag2.replaceFirst p x l = l ++ [x] := by
  induction l with
  | nil => rfl
  | cons y l ih =>
    rw [Tag2.replaceFirst, if_neg (by simp [hl y (by simp)]), ih (fun z hz => hl z (by simp [hz])), List.cons_append]

/-- The signature lifetimes a list of subpackets states, in order. -/
def sigLifetimes (l : List (Sub E)) : List Nat :=
  l.filterMap fun s => match s.body with
    | .sigExpire t => some t
    | _ => none

/-- The key lifetimes a list of subpackets states, in order. -/
def keyLifetimes (l : List (Sub E)) : List Nat :=
  l.filterMap fun s => match s.body with
    | .keyExpire t => some t
    | _ => none

theorem timesLoop_eq (c : Bool) (l : List (Sub E)) (t : Nat × Nat × Nat) :
    Tag2.timesLoop c l t =
      (if c then (creations l).getLastD t.1 else t.1, (sigLifetimes l).getLastD t.2.1, (keyLifetimes l).getLastD t.2.2) := by
  induction l generalizing t with
  | nil => cases c <;> rfl
  | cons a l ih =>
    unfold Tag2.timesLoop at ih ⊢
    rw [List.foldl_cons, ih]
    rcases a with ⟨cr, b⟩
    cases b <;> cases c <;>
      simp only [creations, sigLifetimes, keyLifetimes, List.filterMap_cons, List.getLastD_cons, if_true, Bool.false_eq_true, if_false]

/-- The moment a lifetime ends, as 32-bit number; 0 for no lifetime. -/
def due (created life : Nat) : Nat := if life = 0 then 0 else (life + created) % 2 ^ 32

/-- What `get_times` reports of a version 4 signature: the last creation time of the hashed area, and the ends of the last lifetimes, those of the
unhashed area counting after those of the hashed one. It throws if the creation time is 0 or missing. -/
theorem C70_get_times (s : Tag2 E) (h4 : s.version = 4) :
    s.getTimes =
      (if (creations s.hashed).getLastD 0 = 0 then .throw
        else .ok ((creations s.hashed).getLastD 0,
          due ((creations s.hashed).getLastD 0) ((sigLifetimes (s.hashed ++ s.unhashed)).getLastD 0),
          due ((creations s.hashed).getLastD 0) ((keyLifetimes (s.hashed ++ s.unhashed)).getLastD 0))) := by
  have e : ∀ (l m : List Nat) (d : Nat), (l ++ m).getLastD d = m.getLastD (l.getLastD d) := by
    intro l m d
    rw [List.getLastD_eq_getLast?, List.getLastD_eq_getLast?, List.getLastD_eq_getLast?, List.getLast?_append]
    cases m.getLast? <;> simp
  have es : sigLifetimes (s.hashed ++ s.unhashed) = sigLifetimes s.hashed ++ sigLifetimes s.unhashed := List.filterMap_append
  have ek : keyLifetimes (s.hashed ++ s.unhashed) = keyLifetimes s.hashed ++ keyLifetimes s.unhashed := List.filterMap_append
  unfold Tag2.getTimes
  rw [if_neg (by rw [h4]; decide), if_pos h4, es, ek, e, e, timesLoop_eq, timesLoop_eq]
  simp only [if_true, due]
  split_ifs <;> simp_all

theorem setTime_four (s : Tag2 E) (h4 : s.version = 4) (t : Nat) :
    s.setTime t = { s with hashed := Tag2.replaceFirst (fun x => x.body.type == 2) ⟨false, .sigTime t⟩ s.hashed } := by
  unfold Tag2.setTime
  rw [if_neg (by rw [h4]; decide), if_pos h4]

/-- `set_time` states the time in place of the first creation time of the hashed area, or behind everything if there is none, and changes nothing
else: the other subpackets stay, in order, and so do the unhashed area and all other members. -/
theorem C70_time_rest (s : Tag2 E) (h4 : s.version = 4) (t : Nat) :
    s.setTime t = { s with hashed := (s.setTime t).hashed } ∧
    creations (s.setTime t).hashed = setHead t (creations s.hashed) ∧
    (s.setTime t).hashed.filter (fun x => !(x.body.type == 2)) = s.hashed.filter (fun x => !(x.body.type == 2)) := by
  rw [setTime_four s h4]
  exact ⟨rfl, creations_replace _ _ _, replaceFirst_others _ _ rfl _⟩

theorem lifetimes_of_others (l m : List (Sub E)) (h : l.filter (fun x => !(x.body.type == 2)) = m.filter (fun x => !(x.body.type == 2))) :
    sigLifetimes l = sigLifetimes m ∧ keyLifetimes l = keyLifetimes m := by
  have e : ∀ l : List (Sub E), sigLifetimes l = sigLifetimes (l.filter (fun x => !(x.body.type == 2))) ∧
      keyLifetimes l = keyLifetimes (l.filter (fun x => !(x.body.type == 2))) := by
    intro l
    induction l with
    | nil => exact ⟨rfl, rfl⟩
    | cons a l ih =>
      rw [List.filter_cons]
      by_cases h : (a.body.type == 2) = true
      · obtain ⟨t0, ht⟩ := type_eq_two.mp h
        rw [if_neg (by simp [h])]
        constructor
        · rw [← ih.1]; simp [sigLifetimes, ht]
        · rw [← ih.2]; simp [keyLifetimes, ht]
      · rw [if_pos (by simp [h])]
        constructor
        · have := ih.1; simp only [sigLifetimes, List.filterMap_cons] at this ⊢; rw [this]
        · have := ih.2; simp only [keyLifetimes, List.filterMap_cons] at this ⊢; rw [this]
  exact ⟨(e l).1.trans ((congrArg _ h).trans (e m).1.symm), (e l).2.trans ((congrArg _ h).trans (e m).2.symm)⟩

theorem setHead_last {α : Type} (x d : α) (l : List α) : (setHead x l).getLastD d = if l.length ≤ 1 then x else l.getLastD d := by
  match l with
  | [] => rfl
  | [a] => rfl
  | a :: b :: l => simp [setHead]

/-- With at most one creation time, `set_time` to anything but 0 works: that time is reported, and the lifetimes run from it. -/
theorem C70_time (s : Tag2 E) (h4 : s.version = 4) (t : Nat) (ht : t ≠ 0) (h1 : (creations s.hashed).length ≤ 1) :
    (s.setTime t).getTimes =
      .ok (t, due t ((sigLifetimes (s.hashed ++ s.unhashed)).getLastD 0), due t ((keyLifetimes (s.hashed ++ s.unhashed)).getLastD 0)) := by
  obtain ⟨e1, e2, e3⟩ := C70_time_rest s h4 t
  obtain ⟨l1, l2⟩ := lifetimes_of_others _ _ e3
  have hv : (s.setTime t).version = 4 := by rw [e1]; exact h4
  have hu : (s.setTime t).unhashed = s.unhashed := by rw [e1]
  rw [C70_get_times _ hv, e2, setHead_last, if_pos h1, if_neg ht, hu]
  have a1 : sigLifetimes ((s.setTime t).hashed ++ s.unhashed) = sigLifetimes (s.hashed ++ s.unhashed) := by
    simp only [sigLifetimes, List.filterMap_append] at l1 ⊢; rw [l1]
  have a2 : keyLifetimes ((s.setTime t).hashed ++ s.unhashed) = keyLifetimes (s.hashed ++ s.unhashed) := by
    simp only [keyLifetimes, List.filterMap_append] at l2 ⊢; rw [l2]
  rw [a1, a2]

/-- Exactly when the time set is the time reported. -/
theorem C70_time_iff (s : Tag2 E) (h4 : s.version = 4) (t : Nat) :
    (∃ e f, (s.setTime t).getTimes = .ok (t, e, f)) ↔
      t ≠ 0 ∧ ((creations s.hashed).length ≤ 1 ∨ (creations s.hashed).getLast? = some t) := by
  obtain ⟨e1, e2, -⟩ := C70_time_rest s h4 t
  have hv : (s.setTime t).version = 4 := by rw [e1]; exact h4
  rw [C70_get_times _ hv, e2, setHead_last]
  constructor
  · rintro ⟨e, f, h⟩
    split_ifs at h with h1 h2 h2
    · have := (Prod.mk.inj (Out.ok.inj h)).1
      exact ⟨by rw [← this]; exact h2, Or.inl h1⟩
    · have := (Prod.mk.inj (Out.ok.inj h)).1
      refine ⟨by rw [← this]; exact h2, Or.inr ?_⟩
      rw [List.getLastD_eq_getLast?] at this h2
      cases hg : (creations s.hashed).getLast? with
      | none => rw [hg] at h2; exact absurd rfl h2
      | some x => rw [hg] at this; exact congrArg some this
  · rintro ⟨ht, h⟩
    have hx : (if (creations s.hashed).length ≤ 1 then t else (creations s.hashed).getLastD 0) = t := by
      split_ifs with h1
      · rfl
      · rw [List.getLastD_eq_getLast?, h.resolve_left h1]; rfl
    rw [hx, if_neg ht]
    exact ⟨_, _, rfl⟩

/-- With several creation times, `set_time` has no effect on what is reported, whatever time is set. -/
theorem C70_time_ignored_fails (s : Tag2 E) (h4 : s.version = 4) (t : Nat) (h2 : 2 ≤ (creations s.hashed).length) :
    (s.setTime t).getTimes = s.getTimes := by
  obtain ⟨e1, e2, e3⟩ := C70_time_rest s h4 t
  obtain ⟨l1, l2⟩ := lifetimes_of_others _ _ e3
  have hv : (s.setTime t).version = 4 := by rw [e1]; exact h4
  have hu : (s.setTime t).unhashed = s.unhashed := by rw [e1]
  have e2' : (creations (s.setTime t).hashed).getLastD 0 = (creations s.hashed).getLastD 0 := by rw [e2, setHead_last, if_neg (by omega)]
  rw [C70_get_times _ hv, C70_get_times _ h4, e2', hu]
  have a1 : sigLifetimes ((s.setTime t).hashed ++ s.unhashed) = sigLifetimes (s.hashed ++ s.unhashed) := by
    simp only [sigLifetimes, List.filterMap_append] at l1 ⊢; rw [l1]
  have a2 : keyLifetimes ((s.setTime t).hashed ++ s.unhashed) = keyLifetimes (s.hashed ++ s.unhashed) := by
    simp only [keyLifetimes, List.filterMap_append] at l2 ⊢; rw [l2]
  rw [a1, a2]

/-- Both setters lose the critical bit of the subpacket they replace: `set_time` of the creation time, `set_keyid` of the issuer. -/
theorem C70_critical_fails (s : Tag2 E) (h4 : s.version = 4) (pre post : List (Sub E)) (c : Bool) :
    (∀ t0 t, (∀ x ∈ pre, x.body.type ≠ 2) → s.hashed = pre ++ ⟨c, .sigTime t0⟩ :: post →
      (s.setTime t).hashed = pre ++ ⟨false, .sigTime t⟩ :: post) ∧
    (∀ k0 k, (∀ x ∈ pre, x.body.type ≠ 16) → s.unhashed = pre ++ ⟨c, .issuer k0⟩ :: post → k.length = 8 →
      s.setKeyid k = .ok { s with unhashed := pre ++ ⟨false, .issuer k⟩ :: post }) := by
  constructor
  · intro t0 t hpre hs
    rw [setTime_four s h4, hs]
    exact replaceFirst_mid _ _ _ _ _ (fun y hy => by simpa using hpre y hy) rfl
  · intro k0 k hpre hs hk
    unfold Tag2.setKeyid
    rw [if_neg (by simp [hk]), if_neg (by rw [h4]; decide), if_pos h4, hs]
    rw [replaceFirst_mid _ _ _ _ _ (fun y hy => by simpa using hpre y hy) rfl]

theorem be_eq_iff (w u v : Nat) : be w u = be w v ↔ u % 256 ^ w = v % 256 ^ w := by
  constructor
  · intro h
    exact be_inj (Nat.mod_lt _ (by positivity)) (Nat.mod_lt _ (by positivity)) (by rw [be_mod, be_mod, h])
  · intro h; rw [← be_mod w u, h, be_mod]

/-- A changed creation time is noticed by a verifier: the octets the signature is over change, unless the very same subpacket is stored again. -/
theorem C70_time_signed (rawE : E → Bytes) (s : Tag2 E) (h4 : s.version = 4) (t : Nat) (pre post : List (Sub E)) :
    (∀ c t0, (∀ x ∈ pre, x.body.type ≠ 2) → s.hashed = pre ++ ⟨c, .sigTime t0⟩ :: post →
      ((s.setTime t).upToHashed rawE = s.upToHashed rawE ↔ c = false ∧ t % 2 ^ 32 = t0 % 2 ^ 32)) ∧
    (creations s.hashed = [] → (s.setTime t).upToHashed rawE ≠ s.upToHashed rawE) := by
  have hup : ∀ x : Tag2 E, x.version = 4 → x.upToHashed rawE =
      .ok ([4, x.type, x.pka, x.hash] ++ be 2 (writeSubpackets rawE x.hashed).length ++ writeSubpackets rawE x.hashed) := by
    intro x hx
    unfold Tag2.upToHashed
    rw [if_neg (by rw [hx]; decide), if_pos hx]
  have hkey : (s.setTime t).upToHashed rawE = s.upToHashed rawE ↔
      writeSubpackets rawE (s.setTime t).hashed = writeSubpackets rawE s.hashed := by
    rw [hup s h4, hup (s.setTime t) (by rw [setTime_four s h4]; exact h4), setTime_four s h4]
    constructor
    · intro h
      have h := Out.ok.inj h
      have := congrArg (List.drop 6) h
      simpa [List.drop_append, be_length] using this
    · intro h
      rw [h]
  constructor
  · intro c t0 hpre hs
    rw [hkey, (C70_critical_fails s h4 pre post c).1 t0 t hpre hs, hs]
    simp only [writeSubpackets, List.flatMap_append, List.flatMap_cons, List.append_cancel_left_eq]
    have hw : ∀ (c : Bool) (t : Nat), Sub.write rawE (⟨c, .sigTime t⟩ : Sub E) = [5, if c then 130 else 2] ++ be 4 t := by
      intro c t
      unfold Sub.write
      have : (SubBody.sigTime t : SubBody E).raw rawE = be 4 t := rfl
      rw [this]
      cases c <;> simp [subLengthOctets, be_length, SubBody.type]
    rw [hw, hw, List.append_cancel_right_eq]
    cases c <;> simp [be_eq_iff]
  · intro hs h
    rw [hkey, setTime_four s h4] at h
    have hn : ∀ y ∈ s.hashed, (fun x : Sub E => x.body.type == 2) y = false := by
      intro y hy
      by_contra hc
      have hc : (y.body.type == 2) = true := by simpa using hc
      obtain ⟨t0, ht⟩ := type_eq_two.mp hc
      have : t0 ∈ creations s.hashed := List.mem_filterMap.mpr ⟨y, hy, by rw [ht]⟩
      rw [hs] at this
      simp at this
    rw [replaceFirst_none _ _ _ hn] at h
    have := congrArg List.length h
    simp [writeSubpackets, List.flatMap_append, Sub.write] at this

/-- `set_keyid` throws exactly for key IDs that are not 8 octets; the ID then is the one reported, and what the signature is over, and every part of it
but the issuer, is untouched. -/
theorem C70_keyid (rawE : E → Bytes) (s : Tag2 E) (hv : s.version = 3 ∨ s.version = 4) (k : Bytes) :
    (k.length ≠ 8 → s.setKeyid k = .throw) ∧
    (k.length = 8 → ∃ s', s.setKeyid k = .ok s' ∧ s'.getKeyid = .ok k ∧ s'.upToHashed rawE = s.upToHashed rawE ∧
      s' = { s with keyid := s'.keyid, unhashed := s'.unhashed } ∧ issuers s'.unhashed = (if s.version = 4 then setHead k (issuers s.unhashed) else issuers s.unhashed) ∧
      s'.unhashed.filter (fun x => !(x.body.type == 16)) = s.unhashed.filter (fun x => !(x.body.type == 16)) ∧
      s'.getTimes = s.getTimes) := by
  constructor
  · intro h; unfold Tag2.setKeyid; rw [if_pos h]
  · intro h
    rcases hv with hv | hv
    · refine ⟨{ s with keyid := k }, ?_, ?_, ?_, rfl, ?_, rfl, ?_⟩
      · unfold Tag2.setKeyid; rw [if_neg (by simp [h]), if_pos hv]
      · unfold Tag2.getKeyid; rw [if_pos (by exact hv)]
      · unfold Tag2.upToHashed; simp only [hv, if_true]
      · rw [if_neg (by rw [hv]; decide)]
      · unfold Tag2.getTimes; simp only [hv, if_true]
    · have hs : s.setKeyid k = .ok { s with unhashed := Tag2.replaceFirst (fun x => x.body.type == 16) ⟨false, .issuer k⟩ s.unhashed } := by
        unfold Tag2.setKeyid
        rw [if_neg (by simp [h]), if_neg (by rw [hv]; decide), if_pos hv]
      refine ⟨_, hs, C38_set_keyid s _ hv k hs, ?_, rfl, ?_, replaceFirst_others _ _ rfl _, ?_⟩
      · unfold Tag2.upToHashed; simp only [hv]
      · rw [if_pos hv]
        generalize s.unhashed = l
        change issuers (Tag2.replaceFirst _ _ l) = _
        induction l with
        | nil => rfl
        | cons a l ih =>
          unfold Tag2.replaceFirst
          by_cases ha : (a.body.type == 16) = true
          · rw [if_pos ha]
            obtain ⟨k0, hk⟩ := type_eq_sixteen.mp ha
            simp [issuers, hk, setHead]
          · rw [if_neg ha]
            have hn : (match a.body with | .issuer k => some k | _ => none) = none := by
              split
              · rename_i t0 hb; exact absurd (type_eq_sixteen.mpr ⟨t0, hb⟩) ha
              · rfl
            rw [show issuers (a :: l) = issuers l by simp only [issuers, List.filterMap_cons, hn], ← ih]
            simp only [issuers, List.filterMap_cons, hn]
      · rw [C70_get_times s hv, C70_get_times _ (by exact hv)]
        have a0 : (Tag2.replaceFirst (fun x : Sub E => x.body.type == 16) ⟨false, .issuer k⟩ s.unhashed).filter (fun x => !(x.body.type == 16)) =
            s.unhashed.filter (fun x => !(x.body.type == 16)) := replaceFirst_others _ _ rfl _
        have e : ∀ l : List (Sub E), sigLifetimes l = sigLifetimes (l.filter (fun x => !(x.body.type == 16))) ∧
            keyLifetimes l = keyLifetimes (l.filter (fun x => !(x.body.type == 16))) := by
          intro l
          induction l with
          | nil => exact ⟨rfl, rfl⟩
          | cons a l ih =>
            rw [List.filter_cons]
            by_cases h : (a.body.type == 16) = true
            · obtain ⟨t0, ht⟩ := type_eq_sixteen.mp h
              rw [if_neg (by simp [h])]
              constructor
              · rw [← ih.1]; simp [sigLifetimes, ht]
              · rw [← ih.2]; simp [keyLifetimes, ht]
            · rw [if_pos (by simp [h])]
              constructor
              · have := ih.1; simp only [sigLifetimes, List.filterMap_cons] at this ⊢; rw [this]
              · have := ih.2; simp only [keyLifetimes, List.filterMap_cons] at this ⊢; rw [this]
        have b1 : ∀ l m : List (Sub E), sigLifetimes (l ++ m) = sigLifetimes l ++ sigLifetimes m := fun l m => List.filterMap_append
        have b2 : ∀ l m : List (Sub E), keyLifetimes (l ++ m) = keyLifetimes l ++ keyLifetimes m := fun l m => List.filterMap_append
        simp only [b1, b2]
        rw [(e (Tag2.replaceFirst _ _ _)).1, (e (Tag2.replaceFirst _ _ _)).2, a0, ← (e s.unhashed).1, ← (e s.unhashed).2]

/-- In versions other than 3 and 4 both setters do nothing and say nothing. -/
theorem C70_other_versions_fails (s : Tag2 E) (h3 : s.version ≠ 3) (h4 : s.version ≠ 4) (t : Nat) (k : Bytes) (hk : k.length = 8) :
    s.setTime t = s ∧ s.setKeyid k = .ok s := by
  unfold Tag2.setTime Tag2.setKeyid
  rw [if_neg h3, if_neg h4, if_neg (by simp [hk]), if_neg h3, if_neg h4]
  exact ⟨rfl, rfl⟩

/-! ## Compressed data -/

/-- Changing the algorithm of compressed data keeps the contents, if the codec works on them. -/
theorem C70_recompress (z : Zip) (t : Tag8) (alg : UInt8) (data : Bytes) (hd : t.getData z = .ok data)
    (hz : alg = 0 ∨ ((alg = 1 ∨ alg = 2 ∨ alg = 3) ∧ z.Undoes alg data)) :
    ∃ t', t.setComp z alg = (.ok (), t') ∧ t'.comp = alg ∧ t'.getData z = .ok data := by
  unfold Tag8.setComp
  rw [hd]
  by_cases hc : alg ≠ 0 ∧ data ≠ []
  · rcases hz with rfl | ⟨ha, c, h1, h2, h3⟩
    · exact absurd rfl hc.1
    refine ⟨⟨alg, c⟩, ?_, rfl, ?_⟩
    · simp only [Tag8.setData, compress, if_pos hc, if_pos ha, h1]
    · simp only [Tag8.getData, decompress]
      rw [if_pos ⟨hc.1, h2⟩, if_pos ha, h3]
  · refine ⟨⟨alg, data⟩, ?_, rfl, ?_⟩
    · simp only [Tag8.setData, compress, if_neg hc]
    · simp only [Tag8.getData, decompress, if_neg hc]

/-- An unknown algorithm is refused by an exception, but the packet then claims to be compressed with it: its contents cannot be had any more. -/
theorem C70_recompress_fails (z : Zip) (t : Tag8) (alg : UInt8) (data : Bytes) (hd : t.getData z = .ok data) (hne : data ≠ []) (hc : t.compressed ≠ [])
    (ha : 3 < alg) :
    t.setComp z alg = (.throw, { t with comp := alg }) ∧ ({ t with comp := alg } : Tag8).getData z = .throw := by
  have h0 : alg ≠ 0 := by rintro rfl; simp at ha
  have hn : ¬ (alg = 1 ∨ alg = 2 ∨ alg = 3) := by rintro (rfl | rfl | rfl) <;> revert ha <;> decide
  constructor
  · unfold Tag8.setComp
    rw [hd]
    simp only [Tag8.setData, compress, if_pos (And.intro h0 hne), if_neg hn]
  · simp only [Tag8.getData, decompress]
    rw [if_pos ⟨h0, hc⟩, if_neg hn]

/-! ## The size of secret keys -/

/-- After any of its setters a secret key reports its size correctly only if it is not protected by a passphrase through a specifier; a key that
is reports one octet less than it takes. -/
theorem C70_size (t : Tag5) (r : Bytes) (hr : t.raw = .ok r) :
    (t.setterSize = r.length ↔ ¬ (t.s2kCon = 254 ∨ t.s2kCon = 255) ∧ t.s2k = none) ∧
    (t.s2kCon = 254 ∨ t.s2kCon = 255 → t.setterSize + 1 = r.length) := by
  have hcon : Tag5.hasS2K t.s2kCon = true ↔ (t.s2kCon = 254 ∨ t.s2kCon = 255) := by simp [Tag5.hasS2K]
  rw [← hcon]
  unfold Tag5.raw at hr
  obtain ⟨mid, hm, hr⟩ := Out.bind_eq_ok.mp hr
  obtain rfl := Out.ok.inj hr
  unfold Tag5.protectionOctets at hm
  unfold Tag5.setterSize
  by_cases hs : Tag5.hasS2K t.s2kCon = true
  · rw [if_pos hs] at hm
    cases h : t.s2k with
    | none => rw [h] at hm; simp at hm
    | some s =>
      rw [h] at hm
      obtain rfl := Out.ok.inj hm
      simp only [hs, List.length_append, List.length_cons, List.length_nil, not_true_eq_false, false_and, iff_false, true_imp_iff]
      split_ifs <;> simp <;> omega
  · rw [if_neg hs] at hm
    obtain rfl := Out.ok.inj hm
    simp only [hs, List.length_append, List.length_cons, List.length_nil, not_false_eq_true, true_and, false_imp_iff, and_true, Bool.false_eq_true]
    cases h : t.s2k with
    | none => simp; split_ifs <;> simp
    | some s =>
      have : 0 < s.raw.length := by cases s <;> simp [S2K.raw]
      simp only [reduceCtorEq, iff_false]
      intro he
      split_ifs at he <;> simp at he <;> simp [he] at this

/-! ## Cases that meet the hypotheses -/

/-- A signature created at 1000 that lasts 50 seconds, and the same with a second creation time. -/
def editable : Tag2 Empty := ⟨4, 0, 1, 8, [5], [1, 2], 0, [], [⟨true, .sigTime 1000⟩, ⟨false, .sigExpire 50⟩], [⟨true, .issuer [1, 2, 3, 4, 5, 6, 7, 8]⟩]⟩

example : editable.getTimes = .ok (1000, 1050, 0) ∧ (editable.setTime 2000).getTimes = .ok (2000, 2050, 0) ∧
    (Tag2.setTime { editable with hashed := editable.hashed ++ [⟨false, .sigTime 1500⟩] } 2000).getTimes = .ok (1500, 1550, 0) ∧
    (creations editable.hashed).length ≤ 1 ∧ (editable.setTime 0).getTimes = .throw := by decide +kernel

/-- A codec that reverses the octets. -/
example : ∃ (z : Zip) (t : Tag8), t.getData z = .ok [1, 2, 3] ∧ z.Undoes 2 [1, 2, 3] ∧ t.setComp z 0 = (.ok (), ⟨0, [1, 2, 3]⟩) ∧
    t.setComp z 9 = (.throw, ⟨9, [3, 2, 1]⟩) :=
  ⟨⟨fun _ b => .ok b.reverse, fun _ b => .ok b.reverse⟩, ⟨1, [3, 2, 1]⟩, rfl, ⟨_, rfl, by decide, rfl⟩, rfl, rfl⟩

example : ∃ (t : Tag5) (r : Bytes), t.raw = .ok r ∧ t.s2kCon = 254 ∧ r.length = 29 ∧ t.setterSize = 28 :=
  ⟨⟨⟨4, 1, 1, [5, 7], 0⟩, 254, 9, some (.salted 2 [1, 2, 3, 4, 5, 6, 7, 8]), [1, 2, 3, 4], [1]⟩, _, rfl, rfl, by decide +kernel, by decide +kernel⟩

end OpenPGP
