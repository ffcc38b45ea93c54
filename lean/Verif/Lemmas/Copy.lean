import Verif.Model.Copy

/-! # Copies hold the same and share nothing -/
namespace OpenPGP

local macro "Addr" : term => `(Nat)

/-- The objects from `L` on point only to objects from `L` on. -/
def Fresh (L : Nat) (h : Heap) : Prop := ∀ i c, L ≤ i → h[i]? = some c → ∀ p ∈ c.pointers, L ≤ p ∧ p < h.length

/-- The same objects at the addresses from `L` to before `M`. -/
def AgreeOn (L M : Nat) (h h' : Heap) : Prop := ∀ i, L ≤ i → i < M → h'[i]? = h[i]?

theorem AgreeOn.mono {L M L' M' : Nat} {h h' : Heap} (ha : AgreeOn L M h h') (h1 : L ≤ L') (h2 : M' ≤ M) : AgreeOn L' M' h h' :=
  fun i hi hi' => ha i (by omega) (by omega)

theorem prefix_get {h h' : Heap} (hp : h <+: h') {i : Nat} (hi : i < h.length) : h'[i]? = h[i]? := by
  obtain ⟨t, rfl⟩ := hp
  rw [List.getElem?_append_left hi]

theorem AgreeOn.of_prefix {L M : Nat} {h h' h'' : Heap} (ha : AgreeOn L M h' h'') (hp : h <+: h') (hM : h.length ≤ M) : AgreeOn L h.length h h'' :=
  fun i hi hi' => (ha i hi (by omega)).trans (prefix_get hp hi')

/-- What can be read at an address can be read in every memory with the same objects. -/
def Local {V : Type} (val : Heap → Addr → Option V) : Prop := ∀ h h' a v, val h a = some v → AgreeOn 0 h.length h h' → val h' a = some v

theorem get_of_agree {h h' : Heap} (ha : AgreeOn 0 h.length h h') {a : Addr} {c : Cell} (hc : h[a]? = some c) : h'[a]? = some c := by
  have := (List.getElem?_eq_some_iff.mp hc).1
  rw [ha a (Nat.zero_le _) this, hc]

theorem mapM_some {α β : Type} {f g : α → Option β} {l : List α} {bs : List β} (h : l.mapM f = some bs) (hfg : ∀ a ∈ l, ∀ b, f a = some b → g a = some b) :
    l.mapM g = some bs := by
  induction l generalizing bs with
  | nil => simpa using h
  | cons a l ih =>
    simp only [List.mapM_cons, Option.bind_eq_bind, Option.bind_eq_some_iff, Option.pure_def, Option.some.injEq] at h ⊢
    obtain ⟨b, hb, bs', hbs, rfl⟩ := h
    exact ⟨b, hfg a List.mem_cons_self b hb, bs', ih hbs fun a ha => hfg a (List.mem_cons_of_mem _ ha), rfl⟩

theorem s2kAt_local : Local s2kAt := by
  intro h h' a v hv ha
  rw [s2kAt] at hv ⊢
  cases hc : h[a]? with
  | none => rw [hc] at hv; cases hv
  | some c => rw [get_of_agree ha hc]; rw [hc] at hv; exact hv

theorem textAt_local : Local textAt := by
  intro h h' a v hv ha
  rw [textAt] at hv ⊢
  cases hc : h[a]? with
  | none => rw [hc] at hv; cases hv
  | some c => rw [get_of_agree ha hc]; rw [hc] at hv; exact hv

theorem attrAt_local : Local attrAt := by
  intro h h' a v hv ha
  rw [attrAt] at hv ⊢
  cases hc : h[a]? with
  | none => rw [hc] at hv; cases hv
  | some c => rw [get_of_agree ha hc]; rw [hc] at hv; exact hv

theorem SubBody.value_mono {A B : Type} {f g : A → Option B} (hfg : ∀ a b, f a = some b → g a = some b) {s : SubBody A} {v : SubBody B} (h : s.value f = some v) :
    s.value g = some v := by
  cases s with
  | embedded e =>
    cases e with
    | none => exact h
    | some e =>
      simp only [SubBody.value, Option.map_eq_some_iff] at h ⊢
      obtain ⟨b, hb, rfl⟩ := h
      exact ⟨b, hfg _ _ hb, rfl⟩
  | _ => exact h

theorem subAt_local {B : Type} {val : Heap → Addr → Option B} (hl : Local val) : Local fun h => subAt (val h) h := by
  intro h h' a v hv ha
  simp only [subAt] at hv ⊢
  cases hc : h[a]? with
  | none => rw [hc] at hv; cases hv
  | some c =>
    rw [get_of_agree ha hc]
    rw [hc] at hv
    cases c with
    | sub s =>
      simp only [Option.map_eq_some_iff] at hv ⊢
      obtain ⟨b, hb, rfl⟩ := hv
      exact ⟨b, SubBody.value_mono (fun a b hab => hl h h' a b hab ha) hb, rfl⟩
    | _ => cases hv

theorem sigAt_local (n : Nat) : Local fun h => sigAt h n := by
  induction n with
  | zero => intro h h' a v hv; cases hv
  | succ n ih =>
    intro h h' a v hv ha
    have hs := subAt_local ih
    simp only [sigAt] at hv ⊢
    cases hc : h[a]? with
    | none => rw [hc] at hv; cases hv
    | some c =>
      rw [get_of_agree ha hc]
      rw [hc] at hv
      cases c with
      | sig fmt t hs' us =>
        simp only at hv ⊢
        cases h1 : hs'.mapM (subAt (sigAt h n) h) with
        | none => rw [h1] at hv; cases hv
        | some x =>
          cases h2 : us.mapM (subAt (sigAt h n) h) with
          | none => rw [h1, h2] at hv; cases hv
          | some y =>
            rw [mapM_some h1 fun a _ b hb => hs h h' a b hb ha, mapM_some h2 fun a _ b hb => hs h h' a b hb ha]
            rw [h1, h2] at hv
            exact hv
      | _ => cases hv

/-- `f` copies what `val` reads: the memory is extended, the copy is new, points to new objects only, and what is read of it depends on the new objects only. -/
def Copies {V : Type} (f : Heap → Addr → Out (Addr × Heap)) (val : Heap → Addr → Option V) : Prop :=
  ∀ h a v, val h a = some v → ∃ a' h', f h a = .ok (a', h') ∧ h <+: h' ∧ h.length ≤ a' ∧ a' < h'.length ∧ Fresh h.length h' ∧
    ∀ h'', AgreeOn h.length h'.length h' h'' → val h'' a' = some v

/-- One more object. -/
theorem fresh_alloc {L : Nat} {h : Heap} {c : Cell} (hf : Fresh L h) (hc : ∀ p ∈ c.pointers, L ≤ p ∧ p < h.length) : Fresh L (h ++ [c]) := by
  intro i x hi hx p hp
  rw [List.getElem?_append] at hx
  split at hx
  · have := hf i x hi hx p hp
    exact ⟨this.1, by simp; omega⟩
  · have hx' := List.mem_of_getElem? hx
    obtain rfl := List.mem_singleton.mp hx'
    have := hc p hp
    exact ⟨this.1, by simp; omega⟩

theorem fresh_nil (h : Heap) : Fresh h.length h := by
  intro i c hi hc
  have := (List.getElem?_eq_some_iff.mp hc).1
  omega

theorem agree_last {L : Nat} {h h'' : Heap} {c : Cell} (hL : L ≤ h.length) (ha : AgreeOn L (h ++ [c]).length (h ++ [c]) h'') : h''[h.length]? = some c := by
  rw [ha h.length hL (by simp)]
  simp

theorem agree_init {L : Nat} {h h'' : Heap} {c : Cell} (ha : AgreeOn L (h ++ [c]).length (h ++ [c]) h'') : AgreeOn L h.length h h'' :=
  ha.of_prefix (List.prefix_append _ _) (by simp)

theorem copies_s2k : Copies cloneFlat s2kAt := by
  intro h a v hv
  rw [s2kAt] at hv
  split at hv
  · rename_i s hc
    obtain rfl := Option.some.inj hv
    refine ⟨h.length, h ++ [.s2k s], by rw [cloneFlat, hc]; rfl, List.prefix_append _ _, le_refl _, by simp,
      fresh_alloc (fresh_nil h) (by simp [Cell.pointers]), fun h'' ha => ?_⟩
    rw [s2kAt, agree_last (le_refl _) ha]
  · cases hv

theorem copies_text : Copies cloneFlat textAt := by
  intro h a v hv
  rw [textAt] at hv
  split at hv
  · rename_i s hc
    obtain rfl := Option.some.inj hv
    refine ⟨h.length, h ++ [.text s], by rw [cloneFlat, hc]; rfl, List.prefix_append _ _, le_refl _, by simp,
      fresh_alloc (fresh_nil h) (by simp [Cell.pointers]), fun h'' ha => ?_⟩
    rw [textAt, agree_last (le_refl _) ha]
  · cases hv

theorem copies_attr : Copies cloneFlat attrAt := by
  intro h a v hv
  rw [attrAt] at hv
  split at hv
  · rename_i s hc
    obtain rfl := Option.some.inj hv
    refine ⟨h.length, h ++ [.attr s], by rw [cloneFlat, hc]; rfl, List.prefix_append _ _, le_refl _, by simp,
      fresh_alloc (fresh_nil h) (by simp [Cell.pointers]), fun h'' ha => ?_⟩
    rw [attrAt, agree_last (le_refl _) ha]
  · cases hv

/-- The objects below `M` of a memory which is a beginning of another. -/
theorem fresh_trans {L : Nat} {h1 h2 : Heap} (hp : h1 <+: h2) (hL : L ≤ h1.length) (f1 : Fresh L h1) (f2 : Fresh h1.length h2) : Fresh L h2 := by
  intro i c hi hc p hpc
  by_cases hi' : i < h1.length
  · have := f1 i c hi (by rw [← prefix_get hp hi']; exact hc) p hpc
    exact ⟨this.1, lt_of_lt_of_le this.2 hp.length_le⟩
  · have := f2 i c (by omega) hc p hpc
    exact ⟨by omega, this.2⟩

theorem copies_list {V : Type} {f : Heap → Addr → Out (Addr × Heap)} {val : Heap → Addr → Option V} (hf : Copies f val) (hl : Local val) (as : List Addr) (h : Heap)
    (vs : List V) (hv : as.mapM (val h) = some vs) : ∃ as' h', cloneList f h as = .ok (as', h') ∧ h <+: h' ∧ (∀ a ∈ as', h.length ≤ a ∧ a < h'.length) ∧ Fresh h.length h' ∧
    ∀ h'', AgreeOn h.length h'.length h' h'' → as'.mapM (val h'') = some vs := by
  induction as generalizing h vs with
  | nil =>
    refine ⟨[], h, rfl, List.prefix_refl _, by simp, fresh_nil h, fun h'' _ => ?_⟩
    simpa using hv
  | cons a as ih =>
    simp only [List.mapM_cons, Option.bind_eq_bind, Option.bind_eq_some_iff, Option.pure_def, Option.some.injEq] at hv
    obtain ⟨v, hv1, vs', hvs, rfl⟩ := hv
    obtain ⟨a', h1, e1, p1, l1, u1, f1, r1⟩ := hf h a v hv1
    have hag : AgreeOn 0 h.length h h1 := fun i _ hi => prefix_get p1 hi
    obtain ⟨as', h2, e2, p2, l2, f2, r2⟩ := ih h1 vs' (mapM_some hvs fun a _ b hb => hl h h1 a b hb hag)
    have hlen := p1.length_le
    have hlen2 := p2.length_le
    refine ⟨a' :: as', h2, by rw [cloneList, e1, Out.ok_bind]; simp only [e2, Out.ok_bind, Out.pure_eq], p1.trans p2, ?_, fresh_trans p2 hlen f1 f2, fun h'' ha => ?_⟩
    · intro x hx
      rcases List.mem_cons.mp hx with rfl | hx
      · exact ⟨l1, by omega⟩
      · have := l2 x hx
        exact ⟨by omega, this.2⟩
    · have q1 := r1 h'' (ha.of_prefix p2 hlen2)
      have q2 := r2 h'' (ha.mono hlen (le_refl _))
      simp only [List.mapM_cons, Option.bind_eq_bind, Option.bind_eq_some_iff, Option.pure_def, Option.some.injEq]
      exact ⟨v, q1, vs', q2, rfl⟩

theorem copies_ptr {V : Type} {f : Heap → Addr → Out (Addr × Heap)} {val : Heap → Addr → Option V} (hf : Copies f val) (o : Option Addr) (h : Heap)
    (v : Option V) (hv : ptrAt (val h) o = some v) : ∃ o' h', clonePtr f h o = .ok (o', h') ∧ h <+: h' ∧ (∀ a ∈ o'.toList, h.length ≤ a ∧ a < h'.length) ∧ Fresh h.length h' ∧
    ∀ h'', AgreeOn h.length h'.length h' h'' → ptrAt (val h'') o' = some v := by
  cases o with
  | none => exact ⟨none, h, rfl, List.prefix_refl _, by simp, fresh_nil h, fun h'' _ => hv⟩
  | some a =>
    simp only [ptrAt, Option.map_eq_some_iff] at hv
    obtain ⟨w, hw, rfl⟩ := hv
    obtain ⟨a', h1, e1, p1, l1, u1, f1, r1⟩ := hf h a w hw
    refine ⟨some a', h1, by rw [clonePtr, e1]; rfl, p1, ?_, f1, fun h'' ha => ?_⟩
    · intro x hx
      obtain rfl : x = a' := by simpa using hx
      exact ⟨l1, u1⟩
    · rw [ptrAt, r1 h'' ha]; rfl

theorem copies_sub {B : Type} {f : Heap → Addr → Out (Addr × Heap)} {val : Heap → Addr → Option B} (hf : Copies f val) :
    Copies (cloneSub f) fun h => subAt (val h) h := by
  intro h a v hv
  simp only [subAt] at hv
  split at hv
  swap
  · cases hv
  rename_i s hc
  simp only [Option.map_eq_some_iff] at hv
  obtain ⟨b, hb, rfl⟩ := hv
  by_cases he : ∃ e, s.body = .embedded (some e)
  · obtain ⟨e, he⟩ := he
    rw [he] at hb
    simp only [SubBody.value, Option.map_eq_some_iff] at hb
    obtain ⟨w, hw, rfl⟩ := hb
    obtain ⟨e', h1, e1, p1, l1, u1, f1, r1⟩ := hf h e w hw
    refine ⟨h1.length, h1 ++ [.sub ⟨s.critical, .embedded (some e')⟩], ?_, p1.trans (List.prefix_append _ _), p1.length_le, by simp, ?_, fun h'' ha => ?_⟩
    · rw [cloneSub, hc]; simp only [he, e1, Out.ok_bind]; rfl
    · refine fresh_alloc f1 fun p hp => ?_
      obtain rfl : p = e' := by simpa [Cell.pointers, SubBody.pointers] using hp
      exact ⟨l1, u1⟩
    · simp only [subAt, agree_last p1.length_le ha, SubBody.value, r1 h'' (agree_init ha), Option.map_some]
  · have hcl : cloneSub f h a = .ok (h.length, h ++ [.sub s]) := by
      rw [cloneSub, hc]
      simp only
      split
      · rename_i e he'; exact absurd ⟨e, he'⟩ he
      · rfl
    have hptr : s.body.pointers = [] := by
      unfold SubBody.pointers
      split
      · rename_i e he'; exact absurd ⟨e, he'⟩ he
      · rfl
    have hval : ∀ g : Addr → Option B, s.body.value g = some b := by
      intro g
      cases hs : s.body with
      | embedded e =>
        cases e with
        | none => rw [hs] at hb; exact hb
        | some e => exact absurd ⟨e, hs⟩ he
      | _ => rw [hs] at hb; exact hb
    refine ⟨h.length, h ++ [.sub s], hcl, List.prefix_append _ _, le_refl _, by simp, fresh_alloc (fresh_nil h) (by simp [Cell.pointers, hptr]), fun h'' ha => ?_⟩
    simp only [subAt, agree_last (le_refl _) ha, hval, Option.map_some]

theorem copies_sig (n : Nat) : Copies (cloneSig n) fun h => sigAt h n := by
  induction n with
  | zero => intro h a v hv; cases hv
  | succ n ih =>
    intro h a v hv
    have hs := copies_sub ih
    have hl := subAt_local (sigAt_local n)
    simp only [sigAt] at hv
    split at hv
    swap
    · cases hv
    rename_i fmt t hs' us hc
    split at hv
    swap
    · cases hv
    rename_i x y hx hy
    obtain rfl := Option.some.inj hv
    obtain ⟨_, h1, e1, p1, -, f1, -⟩ := copies_list hs hl hs' h x hx
    have a1 : AgreeOn 0 h.length h h1 := fun i _ hi => prefix_get p1 hi
    obtain ⟨_, h2, e2, p2, -, f2, -⟩ := copies_list hs hl us h1 y (mapM_some hy fun a _ b hb => hl h h1 a b hb a1)
    have p12 := p1.trans p2
    have a2 : AgreeOn 0 h.length h h2 := fun i _ hi => prefix_get p12 hi
    obtain ⟨hs2, h3, e3, p3, l3, f3, r3⟩ := copies_list hs hl hs' h2 x (mapM_some hx fun a _ b hb => hl h h2 a b hb a2)
    have p123 := p12.trans p3
    have a3 : AgreeOn 0 h.length h h3 := fun i _ hi => prefix_get p123 hi
    obtain ⟨us2, h4, e4, p4, l4, f4, r4⟩ := copies_list hs hl us h3 y (mapM_some hy fun a _ b hb => hl h h3 a b hb a3)
    have n1 := p1.length_le
    have n2 := p2.length_le
    have n3 := p3.length_le
    have n4 := p4.length_le
    have ff := fresh_trans p4 (by omega) (fresh_trans p3 (by omega) (fresh_trans p2 (by omega) f1 f2) f3) f4
    refine ⟨h4.length, h4 ++ [.sig fmt t hs2 us2], ?_, (p123.trans p4).trans (List.prefix_append _ _), by omega, by simp, fresh_alloc ff fun p hp => ?_, fun h'' ha => ?_⟩
    · rw [cloneSig, hc]
      simp only [e1, e2, e3, e4, Out.ok_bind, alloc]
    · rcases List.mem_append.mp hp with hp | hp
      · have := l3 p hp; exact ⟨by omega, by omega⟩
      · have := l4 p hp; exact ⟨by omega, by omega⟩
    · have q := agree_init ha
      have q3 := r3 h'' ((q.of_prefix p4 n4).mono (by omega) (le_refl _))
      have q4 := r4 h'' (q.mono (by omega) (le_refl _))
      simp only [sigAt, agree_last (by omega : h.length ≤ h4.length) ha, q3, q4]

theorem pktAt_local (n : Nat) : Local fun h => pktAt h n := by
  intro h h' a v hv ha
  have hs := subAt_local (sigAt_local n)
  simp only [pktAt] at hv ⊢
  cases hc : h[a]? with
  | none => rw [hc] at hv; cases hv
  | some c =>
    rw [get_of_agree ha hc]
    rw [hc] at hv
    cases c with
    | sig fmt t hs' us =>
      simp only at hv ⊢
      cases h1 : hs'.mapM (subAt (sigAt h n) h) with
      | none => rw [h1] at hv; cases hv
      | some x =>
        cases h2 : us.mapM (subAt (sigAt h n) h) with
        | none => rw [h1, h2] at hv; cases hv
        | some y =>
          rw [mapM_some h1 fun a _ b hb => hs h h' a b hb ha, mapM_some h2 fun a _ b hb => hs h h' a b hb ha]
          rw [h1, h2] at hv
          exact hv
    | skesk fmt ver s k e =>
      have hk : ∀ x, ptrAt (s2kAt h) k = some x → ptrAt (s2kAt h') k = some x := by
        intro x hx
        cases k with
        | none => exact hx
        | some k =>
          simp only [ptrAt, Option.map_eq_some_iff] at hx ⊢
          obtain ⟨w, hw, rfl⟩ := hx
          exact ⟨w, s2kAt_local h h' k w hw ha, rfl⟩
      have he : ∀ x, ptrAt (textAt h) e = some x → ptrAt (textAt h') e = some x := by
        intro x hx
        cases e with
        | none => exact hx
        | some k =>
          simp only [ptrAt, Option.map_eq_some_iff] at hx ⊢
          obtain ⟨w, hw, rfl⟩ := hx
          exact ⟨w, textAt_local h h' k w hw ha, rfl⟩
      simp only at hv ⊢
      cases h1 : ptrAt (s2kAt h) k with
      | none => rw [h1] at hv; cases hv
      | some x =>
        cases h2 : ptrAt (textAt h) e with
        | none => rw [h1, h2] at hv; cases hv
        | some y =>
          rw [hk x h1, he y h2]
          rw [h1, h2] at hv
          exact hv
    | secret fmt sk key con sym k iv sec =>
      have hk : ∀ x, ptrAt (s2kAt h) k = some x → ptrAt (s2kAt h') k = some x := by
        intro x hx
        cases k with
        | none => exact hx
        | some k =>
          simp only [ptrAt, Option.map_eq_some_iff] at hx ⊢
          obtain ⟨w, hw, rfl⟩ := hx
          exact ⟨w, s2kAt_local h h' k w hw ha, rfl⟩
      simp only at hv ⊢
      cases h1 : ptrAt (s2kAt h) k with
      | none => rw [h1] at hv; cases hv
      | some x =>
        rw [hk x h1]
        rw [h1] at hv
        exact hv
    | userAttr fmt l =>
      simp only [Option.map_eq_some_iff] at hv ⊢
      obtain ⟨w, hw, rfl⟩ := hv
      exact ⟨w, mapM_some hw fun a _ b hb => attrAt_local h h' a b hb ha, rfl⟩
    | plain p => exact hv
    | _ => cases hv

theorem copies_pkt (n : Nat) : Copies (clonePkt n) fun h => pktAt h n := by
  intro h a v hv
  cases hc : h[a]? with
  | none => simp only [pktAt, hc] at hv; cases hv
  | some c =>
    cases c with
    | sig fmt t hs us =>
      simp only [pktAt, hc] at hv
      split at hv
      swap
      · cases hv
      rename_i x y hx hy
      obtain rfl := Option.some.inj hv
      have hsig : sigAt h (n + 1) a = some (⟨t.version, t.type, t.pka, t.hash, t.mpi, t.left16, t.time, t.keyid, x, y⟩ : Tag2 (SigAt n)) := by
        simp only [sigAt, hc, hx, hy]
        rfl
      obtain ⟨a', h', e, p, l, u, f, r⟩ := copies_sig (n + 1) h a _ hsig
      -- the format is the one of the original
      have hcell : ∃ hs2 us2, h'[a']? = some (.sig fmt t hs2 us2) := by
        rw [cloneSig, hc] at e
        obtain ⟨⟨_, g1⟩, -, e⟩ := Out.bind_eq_ok.mp e
        obtain ⟨⟨_, g2⟩, -, e⟩ := Out.bind_eq_ok.mp e
        obtain ⟨⟨hs2, g3⟩, -, e⟩ := Out.bind_eq_ok.mp e
        obtain ⟨⟨us2, g4⟩, -, e⟩ := Out.bind_eq_ok.mp e
        have e := Out.ok.inj e
        simp only [Prod.mk.injEq] at e
        obtain ⟨rfl, rfl⟩ := e
        exact ⟨hs2, us2, by simp⟩
      obtain ⟨hs2, us2, hcell⟩ := hcell
      refine ⟨a', h', by rw [clonePkt, hc]; exact e, p, l, u, f, fun h'' ha => ?_⟩
      have q := r h'' ha
      simp only [sigAt, ha a' l u, hcell] at q
      simp only [pktAt, ha a' l u, hcell]
      split at q
      swap
      · cases q
      rename_i x' y' hx' hy'
      have q := Option.some.inj q
      rw [show (⟨t.version, t.type, t.pka, t.hash, t.mpi, t.left16, t.time, t.keyid, x', y'⟩ : Tag2 (SigAt n)) = _ from q]
    | skesk fmt ver s k e =>
      simp only [pktAt, hc] at hv
      split at hv
      swap
      · cases hv
      rename_i x y hx hy
      obtain rfl := Option.some.inj hv
      obtain ⟨k', h1, e1, p1, l1, f1, r1⟩ := copies_ptr copies_s2k k h x hx
      have a1 : AgreeOn 0 h.length h h1 := fun i _ hi => prefix_get p1 hi
      have hy' : ptrAt (textAt h1) e = some y := by
        cases e with
        | none => exact hy
        | some e =>
          simp only [ptrAt, Option.map_eq_some_iff] at hy ⊢
          obtain ⟨w, hw, rfl⟩ := hy
          exact ⟨w, textAt_local h h1 e w hw a1, rfl⟩
      obtain ⟨e', h2, e2, p2, l2, f2, r2⟩ := copies_ptr copies_text e h1 y hy'
      have n1 := p1.length_le
      have n2 := p2.length_le
      refine ⟨h2.length, h2 ++ [.skesk fmt ver s k' e'], ?_, (p1.trans p2).trans (List.prefix_append _ _), by omega, by simp,
        fresh_alloc (fresh_trans p2 (by omega) f1 f2) fun p hp => ?_, fun h'' ha => ?_⟩
      · rw [clonePkt, hc]; simp only [e1, e2, Out.ok_bind, alloc]
      · rcases List.mem_append.mp hp with hp | hp
        · have := l1 p hp; exact ⟨by omega, by omega⟩
        · have := l2 p hp; exact ⟨by omega, by omega⟩
      · have q := agree_init ha
        simp only [pktAt, agree_last (by omega : h.length ≤ h2.length) ha, r1 h'' (q.of_prefix p2 n2), r2 h'' (q.mono (by omega) (le_refl _))]
    | secret fmt sk key con sym k iv sec =>
      simp only [pktAt, hc] at hv
      split at hv
      swap
      · cases hv
      rename_i x hx
      obtain rfl := Option.some.inj hv
      obtain ⟨k', h1, e1, p1, l1, f1, r1⟩ := copies_ptr copies_s2k k h x hx
      have n1 := p1.length_le
      refine ⟨h1.length, h1 ++ [.secret fmt sk key con sym k' iv sec], ?_, p1.trans (List.prefix_append _ _), by omega, by simp,
        fresh_alloc f1 fun p hp => l1 p (by simpa only [Cell.pointers] using hp), fun h'' ha => ?_⟩
      · rw [clonePkt, hc]; simp only [e1, Out.ok_bind, alloc]
      · simp only [pktAt, agree_last (by omega : h.length ≤ h1.length) ha, r1 h'' (agree_init ha)]
    | userAttr fmt l =>
      simp only [pktAt, hc, Option.map_eq_some_iff] at hv
      obtain ⟨x, hx, rfl⟩ := hv
      obtain ⟨l', h1, e1, p1, l1, f1, r1⟩ := copies_list copies_attr attrAt_local l h x hx
      have n1 := p1.length_le
      refine ⟨h1.length, h1 ++ [.userAttr fmt l'], ?_, p1.trans (List.prefix_append _ _), by omega, by simp,
        fresh_alloc f1 fun p hp => l1 p (by simpa only [Cell.pointers] using hp), fun h'' ha => ?_⟩
      · rw [clonePkt, hc]; simp only [e1, Out.ok_bind, alloc]
      · simp only [pktAt, agree_last (by omega : h.length ≤ h1.length) ha, r1 h'' (agree_init ha), Option.map_some]
    | plain q =>
      simp only [pktAt, hc] at hv
      refine ⟨h.length, h ++ [.plain q], ?_, List.prefix_append _ _, le_refl _, by simp,
        fresh_alloc (fresh_nil h) (by simp [Cell.pointers]), fun h'' ha => ?_⟩
      · rw [clonePkt, hc]; rfl
      · simp only [pktAt, agree_last (le_refl _) ha]; exact hv
    | _ => simp only [pktAt, hc] at hv; cases hv

end OpenPGP
