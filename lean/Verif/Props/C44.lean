import Verif.Props.C30

/-!
# C44: the revocation check

The operations that consult the check (`Encrypt::pka`, `Sign::*`) are in C26 and C36.
-/
namespace OpenPGP
open Rfc KeyObj

section
variable {E : Type}

/-- The key carries a revocation signature: of the key (0x20), of a subkey (0x28) or of a certification (0x30). -/
def CarriesRevocation (k : KeyObj E) : Prop :=
  ∃ p ∈ k.packets, SigOf (fun t => t = 0x20 ∨ t = 0x28 ∨ t = 0x30) p.body

/-- A subkey or certification revocation is among the packets (the loop of `Revoke::check`). -/
def laterRevocation (l : List (Pkt E)) : Bool :=
  l.any fun p => match p.body with
    | .sig s => s.type == 0x28 || s.type == 0x30
    | _ => false

theorem laterRevocation_iff (l : List (Pkt E)) :
    laterRevocation l = true ↔ ∃ p ∈ l, SigOf (fun t => t = 0x28 ∨ t = 0x30) p.body := by
  rw [laterRevocation, List.any_eq_true]
  constructor
  · rintro ⟨p, hp, h⟩
    refine ⟨p, hp, ?_⟩
    cases hb : p.body <;> rw [hb] at h <;> simp at h
    exact ⟨_, rfl, h⟩
  · rintro ⟨p, hp, s, hs, h⟩
    refine ⟨p, hp, ?_⟩
    rw [hs]
    simpa using h

theorem revokeCheck_eq (k : KeyObj E) (h : k.meaningful = .ok true) :
    ∃ p q r, k.packets = p :: q :: r ∧
      k.revokeCheck = .ok (match q.body with
        | .sig s => if s.type = 0x20 then .yes else .error
        | _ => if laterRevocation k.packets then .yes else .no) := by
  rcases hp : k.packets with - | ⟨p, - | ⟨q, r⟩⟩
  · exfalso
    rw [KeyObj.meaningful, hp] at h
    revert h
    cases k.kind <;> simp [meaningfulBodies, KeyObj.tags]
  · exfalso
    rw [KeyObj.meaningful, hp] at h
    revert h
    cases k.kind <;> simp [meaningfulBodies, KeyObj.tags]
  · refine ⟨p, q, r, rfl, ?_⟩
    rw [revokeCheck, h, Out.ok_bind, hp]
    simp only [Bool.not_true, Bool.false_eq_true, if_false]
    cases hq : q.body <;> simp only [laterRevocation] <;> rfl

/-- The kind of a meaningful key. -/
theorem tags_of_meaningful {k : KeyObj E} (h : k.meaningful = .ok true) : ∃ key subkey, tags k.kind = some (key, subkey) := by
  rw [KeyObj.meaningful] at h
  cases hk : k.kind with
  | pub => exact ⟨_, _, rfl⟩
  | sec => exact ⟨_, _, rfl⟩
  | other => rw [hk] at h; simp [C30_other_types] at h

/-- Objects that are no well-formed keys: the check answers -1. -/
theorem C44_not_a_key (k : KeyObj E) (h : k.meaningful = .ok false) : k.revokeCheck = .ok .error := by
  rw [revokeCheck, h, Out.ok_bind]; rfl

/-- For every well-formed key the check answers true or false, never -1. -/
theorem C44_definite (k : KeyObj E) (h : k.meaningful = .ok true) :
    k.revokeCheck = .ok .yes ∨ k.revokeCheck = .ok .no := by
  obtain ⟨p, q, r, hp, e⟩ := revokeCheck_eq k h
  obtain ⟨key, subkey, ht⟩ := tags_of_meaningful h
  rw [KeyObj.meaningful, C30_meaningful_iff k.kind key subkey ht, hp] at h
  obtain ⟨p', revs, users, gs, e1, hk, hrev, hu, ⟨g0, hg0, -⟩, -⟩ := h
  rw [e]
  cases hq : q.body with
  | sig s =>
    simp only
    have : s.type = 0x20 := by
      simp only [List.map_cons, List.cons.injEq] at e1
      cases revs with
      | cons x revs =>
        obtain ⟨s', hs', h2⟩ := hrev x (by simp)
        rw [List.cons_append, List.cons_append, List.cons.injEq] at e1
        rw [← e1.2.1, hq] at hs'
        rw [Body.sig.inj hs']; exact h2
      | nil =>
        cases users with
        | nil => simp at hg0
        | cons g users =>
          obtain ⟨b, sigs, rfl, hb, -⟩ := (userBlock_iff g).mp (hu g (by simp))
          rw [List.nil_append, List.flatten_cons, List.cons_append, List.cons_append, List.cons.injEq] at e1
          rw [← e1.2.1, hq] at hb
          exact absurd hb (by simp [Body.tag])
    rw [if_pos this]
    exact Or.inl rfl
  | _ =>
    simp only
    split
    · exact Or.inl rfl
    · exact Or.inr rfl

/-- For every key in the layout of RFC 4880, public or secret: the check is true exactly when the key carries a revocation
signature, of the primary key, of a subkey or of a certification of a user ID. -/
theorem C44_check_iff (k : KeyObj E) (key subkey : Nat) (ht : tags k.kind = some (key, subkey))
    (h : TransferableKey true key subkey (k.packets.map (·.body))) :
    k.revokeCheck = .ok .yes ↔ CarriesRevocation k := by
  have hm : k.meaningful = .ok true := C30_accepts_strict k.kind key subkey ht _ h
  obtain ⟨p, q, r, hp, e⟩ := revokeCheck_eq k hm
  have hd := C44_definite k hm
  rw [e] at hd ⊢
  constructor
  · intro hy
    cases hq : q.body with
    | sig s =>
      rw [hq] at hy
      simp only [Out.ok.injEq] at hy
      refine ⟨q, by rw [hp]; simp, s, hq, Or.inl ?_⟩
      by_contra hn
      rw [if_neg hn] at hy
      exact absurd hy (by simp)
    | _ =>
      rw [hq] at hy
      simp only [Out.ok.injEq] at hy
      have : laterRevocation k.packets = true := by
        by_contra hn
        rw [if_neg hn] at hy
        exact absurd hy (by simp)
      obtain ⟨x, hx, s, hs, h2⟩ := (laterRevocation_iff _).mp this
      exact ⟨x, hx, s, hs, Or.inr h2⟩
  · rintro ⟨x, hx, s, hs, h2⟩
    have hq : (∃ s', q.body = .sig s') ∨ ∀ s', q.body ≠ .sig s' := by
      cases hb : q.body <;> first | (left; exact ⟨_, rfl⟩) | (right; intro s' h; simp at h)
    rcases hq with ⟨s', hq⟩ | hq
    · rw [hq] at hd ⊢
      simp only [Out.ok.injEq] at hd ⊢
      split at hd
      · rename_i h20; rw [if_pos h20]
      · rcases hd with hd | hd <;> exact absurd hd (by simp)
    · have hlater : laterRevocation k.packets = true := by
        rcases h2 with h2 | h2
        swap
        · exact (laterRevocation_iff _).mpr ⟨x, hx, s, hs, h2⟩
        -- a key revocation stands only behind the primary key
        exfalso
        obtain ⟨p', revs, users, gs, e1, hk, hrev, hu, ⟨g0, hg0, -⟩, hg, -⟩ := h
        have hmem : x.body ∈ p' :: (revs ++ users.flatten ++ gs.flatten) := by
          rw [← e1]; exact List.mem_map.mpr ⟨x, hx, rfl⟩
        rw [hp] at e1
        simp only [List.map_cons, List.cons.injEq] at e1
        have hr0 : revs = [] := by
          cases revs with
          | nil => rfl
          | cons y revs =>
            obtain ⟨s', hs', -⟩ := hrev y (by simp)
            rw [List.cons_append, List.cons_append, List.cons.injEq] at e1
            exact absurd (e1.2.1.trans hs') (hq s')
        subst hr0
        rw [hs] at hmem
        rcases List.mem_cons.mp hmem with h0 | h0
        · have := (tags_cases ht).1
          rw [← h0] at hk
          simp only [Body.tag] at hk
          omega
        · rw [List.nil_append] at h0
          rcases List.mem_append.mp h0 with h0 | h0
          · obtain ⟨g, hg1, hg2⟩ := List.mem_flatten.mp h0
            obtain ⟨b, sigs, rfl, hb, hsig⟩ := (userBlock_iff g).mp (hu g hg1)
            rcases List.mem_cons.mp hg2 with rfl | hg2
            · simp [Body.tag] at hb
            · rcases hsig _ hg2 with ⟨s', h3, h4, h5⟩ | ⟨-, s', h3, h4⟩
              · obtain rfl := Body.sig.inj h3
                rw [h2] at h5
                exact absurd h5 (by decide)
              · obtain rfl := Body.sig.inj h3
                rw [h2] at h4
                exact absurd h4 (by decide)
          · obtain ⟨g, hg1, hg2⟩ := List.mem_flatten.mp h0
            obtain ⟨b, sigs, rfl, hb, hsig, -⟩ := hg g hg1
            rcases List.mem_cons.mp hg2 with rfl | hg2
            · exact (tags_cases ht).2.1 (by rw [← hb]; rfl)
            · obtain ⟨s', h3, h4⟩ := hsig _ hg2
              obtain rfl := Body.sig.inj h3
              rw [h2] at h4
              exact absurd (h4 rfl) (by decide)
      cases hb : q.body <;> first
        | (exact absurd hb (hq _))
        | (simp only; rw [if_pos hlater])

/-- Only the types of the signature packets count, not whether anybody's key made them: forged revocations revoke. -/
theorem C44_unverified (k k' : KeyObj E) (f : Tag2 E → Tag2 E) (hf : ∀ s, (f s).type = s.type)
    (hp : k'.packets = k.packets.map fun p => match p.body with | .sig s => ⟨p.fmt, p.part, .sig (f s)⟩ | _ => p)
    (h : k.meaningful = .ok true) (h' : k'.meaningful = .ok true) : k'.revokeCheck = k.revokeCheck := by
  obtain ⟨p, q, r, e1, e2⟩ := revokeCheck_eq k h
  obtain ⟨p', q', r', e1', e2'⟩ := revokeCheck_eq k' h'
  have hl : laterRevocation k'.packets = laterRevocation k.packets := by
    rw [hp, laterRevocation, laterRevocation, List.any_map]
    congr 1
    funext x
    obtain ⟨fm, pa, b⟩ := x
    cases b <;> first | rfl | simp [hf]
  rw [e2, e2', hl]
  rw [e1', e1] at hp
  simp only [List.map_cons, List.cons.injEq] at hp
  rw [hp.2.1]
  obtain ⟨fm, pa, b⟩ := q
  cases b <;> first | rfl | simp [hf]

end

/-- Outside the RFC's layout (accepted by the library, C30): a key revocation behind a subkey is not seen. -/
def c44Misplaced : KeyObj Empty :=
  ⟨.pub, [⟨.new, false, .publicKey ⟨4, 1500000000, 1, [0xffee, 17], 0⟩⟩, ⟨.new, false, .userId [97]⟩,
    ⟨.new, false, .publicSubkey ⟨4, 1500000000, 1, [0xffee, 17], 0⟩⟩, ⟨.new, false, .sig (c30Sig 0x18)⟩,
    ⟨.new, false, .sig (c30Sig 0x20)⟩]⟩

theorem C44_misplaced_fails : c44Misplaced.meaningful = .ok true ∧ CarriesRevocation c44Misplaced ∧
    c44Misplaced.revokeCheck = .ok .no :=
  ⟨by decide +kernel, ⟨⟨.new, false, .sig (c30Sig 0x20)⟩, by simp [c44Misplaced], c30Sig 0x20, rfl, Or.inl rfl⟩, by decide +kernel⟩

/-- A revoked public key, and one that is not. -/
def c44Key (revoked : Bool) : KeyObj Empty :=
  ⟨.pub, [⟨.new, false, .publicKey ⟨4, 1500000000, 1, [0xffee, 17], 0⟩⟩, ⟨.new, false, .userId [97]⟩,
    ⟨.new, false, .sig (c30Sig 0x13)⟩] ++ (if revoked then [⟨.new, false, .sig (c30Sig 0x30)⟩] else [])⟩

theorem c44Key_strict (b : Bool) : TransferableKey true 6 14 ((c44Key b).packets.map (·.body)) := by
  refine ⟨.publicKey ⟨4, 1500000000, 1, [0xffee, 17], 0⟩, [],
    [.userId [97] :: .sig (c30Sig 0x13) :: if b then [.sig (c30Sig 0x30)] else []], [], ?_, rfl, by simp, ?_, ?_, by simp, by simp⟩
  · cases b <;> rfl
  · intro g hg
    obtain rfl := List.mem_singleton.mp hg
    refine .id _ _ fun s hs => ?_
    cases b
    · simp only [Bool.false_eq_true, if_false, List.mem_singleton] at hs
      subst hs
      exact Or.inl ⟨_, rfl, by decide, by decide⟩
    · simp only [if_true, List.mem_cons, List.not_mem_nil, or_false] at hs
      rcases hs with rfl | rfl
      · exact Or.inl ⟨_, rfl, by decide, by decide⟩
      · exact Or.inr ⟨_, rfl, rfl⟩
  · exact ⟨_, List.mem_singleton.mpr rfl, _, _, rfl⟩

example : KeyObj.tags (c44Key true).kind = some (6, 14) ∧ (c44Key true).revokeCheck = .ok .yes ∧
    (c44Key false).revokeCheck = .ok .no := ⟨rfl, by decide +kernel, by decide +kernel⟩

end OpenPGP
