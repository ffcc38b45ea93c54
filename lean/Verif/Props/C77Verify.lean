import Verif.Props.C77

/-!
# C77: somebody else's signatures
-/
namespace OpenPGP
open Policy Rfc
variable {E : Type}

/-- A public key with a foreign subkey put into it, taken apart. -/
theorem stranger_parts {k : KeyObj E} (hkind : k.kind = .pub) (h : k.meaningful = .ok true) {primary : KeyPkt} (hp : k.packets.head?.bind (·.body.keyPart) = some primary)
    (hv : primary.version ≠ 3) (x : KeyPkt) {s : Tag2 E} (hs : s.type = 0x18) :
    KeyObj.meaningful (⟨.pub, withSubkey x s k.packets⟩ : KeyObj E) = .ok true ∧
      ∃ p T D, k.packets = p :: T ++ D ∧ withSubkey x s k.packets = p :: T ++ ⟨.new, false, .publicSubkey x⟩ :: ⟨.new, false, .sig s⟩ :: D ∧ p.body.keyPart = some primary ∧
        ∀ y ∈ T, y.body.keyPart = none := by
  obtain ⟨pb, revs, users, subkeys, e1, e2, h1, h2, h3, h4, h5⟩ := public_parts hkind h
  have eT : k.packets = k.packets.takeWhile (·.body.tag ≠ 14) ++ k.packets.dropWhile (·.body.tag ≠ 14) := List.takeWhile_append_dropWhile.symm
  unfold withSubkey
  revert e1 e2 eT
  generalize k.packets.takeWhile (·.body.tag ≠ 14) = T
  generalize k.packets.dropWhile (·.body.tag ≠ 14) = D
  intro e1 e2 eT
  cases T with
  | nil => cases e1
  | cons p T =>
    have hp : p.body.keyPart = some primary := by rw [eT] at hp; exact hp
    have e1' := e1
    rw [List.map_cons, List.cons.injEq] at e1'
    obtain ⟨hpb, e1'⟩ := e1'
    refine ⟨?_, p, T, D, eT, rfl, hp, ?_⟩
    · rw [KeyObj.meaningful, C30_meaningful_iff .pub 6 14 rfl]
      refine ⟨pb, revs, users, [.publicSubkey x, .sig s] :: subkeys, ?_, h1, h2, h3, h4, ?_, ?_⟩
      · rw [List.map_append, e1, List.map_cons, List.map_cons, e2]
        simp
      · intro g hg
        rcases List.mem_cons.mp hg with rfl | hg
        · exact ⟨_, _, rfl, rfl, by intro y hy; rw [List.mem_singleton.mp hy]; exact ⟨s, rfl, by simp⟩, .sig s, by simp, s, rfl, hs⟩
        · exact h5 g hg
      · intro _ kk hkk
        rw [← hpb] at hkk
        have : p.body.keyPart = some kk := by
          rcases hkk with hkk | ⟨t, hkk, ht⟩
          · rw [hkk]; rfl
          · rw [hkk, ← ht]; rfl
        rw [hp] at this
        obtain rfl := Option.some.inj this
        exact hv
    · intro y hy
      have hm : y.body ∈ revs ++ users.flatten := by rw [← e1']; exact List.mem_map_of_mem hy
      rcases List.mem_append.mp hm with hm | hm
      · obtain ⟨s, e, -⟩ := h2 _ hm
        rw [e]; rfl
      · obtain ⟨g, hg, hm⟩ := List.mem_flatten.mp hm
        rcases h3 g hg with ⟨u, sigs, hc⟩ | ⟨u, sigs, hc⟩
        · rcases List.mem_cons.mp hm with e | hm
          · rw [e]; rfl
          · rcases hc _ hm with hc | hc <;> obtain ⟨s, e, -⟩ := hc <;> rw [e] <;> rfl
        · rcases List.mem_cons.mp hm with e | hm
          · rw [e]; rfl
          · obtain ⟨s, e, -⟩ := hc _ hm
            rw [e]; rfl

/-- **Failure: somebody else's signatures.** Whoever puts a subkey of his own, that can sign, with any signature of the right type in front of the subkeys of another one's public key,
whose primary key cannot sign, signs in that one's name: a detached signature is accepted as the other one's exactly when it names the other one's key and its values are good for the
stranger's key. -/
theorem C77_impostor_fails (cr : Crypto) (hcr : cr.Ok) (rawE : E → Bytes) (k : KeyObj E) (hkind : k.kind = .pub) (h : k.meaningful = .ok true) (hsz : k.Sized) (primary : KeyPkt)
    (hp : k.packets.head?.bind (·.body.keyPart) = some primary) (hv : primary.version ≠ 3) (hc : ¬ (primary.pka = 1 ∨ primary.pka = 3 ∨ primary.pka = 17)) (x : KeyPkt)
    (hx : x.pka = 1 ∨ x.pka = 3 ∨ x.pka = 17) (hxs : ∀ n ∈ x.mpi, n.log2 < 2 ^ 32) (s : Tag2 E) (hs : s.type = 0x18) (data : Bytes) (sig : PgpObj (Pkt E)) :
    verifyDetached cr rawE ⟨.pub, withSubkey x s k.packets⟩ data sig = .ok .yes ↔
      ∃ d i, IsDetached sig d ∧ Hashed rawE data d i ∧ (∃ id, id ≠ [] ∧ d.getKeyid = .ok id ∧ k.keyid cr = .ok id) ∧ d.left16 = (cr.hash d.hash i).take 2 ∧ GoodValues cr x d i := by
  obtain ⟨hm, p, T, D, e, e', hkp, hT⟩ := stranger_parts hkind h hp hv x hs
  have hsz' : KeyObj.Sized (⟨.pub, withSubkey x s k.packets⟩ : KeyObj E) := by
    intro y hy kp hkp'
    have hy : y ∈ p :: T ++ ⟨.new, false, .publicSubkey x⟩ :: ⟨.new, false, .sig s⟩ :: D := e' ▸ hy
    rcases List.mem_append.mp hy with hy | hy
    · exact hsz y (by rw [e]; exact List.mem_append_left _ hy) kp hkp'
    rcases List.mem_cons.mp hy with rfl | hy
    · obtain rfl := Option.some.inj hkp'
      exact hxs
    rcases List.mem_cons.mp hy with rfl | hy
    · cases hkp'
    · exact hsz y (by rw [e]; exact List.mem_append_right _ hy) kp hkp'
  have hid : KeyObj.keyid cr (⟨.pub, withSubkey x s k.packets⟩ : KeyObj E) = k.keyid cr := by
    unfold KeyObj.keyid
    rw [h, hm]
    dsimp only
    rw [e', e]
    rfl
  have hsign : ∀ kp, SigningKey (⟨.pub, withSubkey x s k.packets⟩ : KeyObj E) kp ↔ kp = x := by
    intro kp
    have first : ∀ q ∈ p :: T, ∀ kq, q.body.keyPart = some kq → ¬ (kq.pka = 1 ∨ kq.pka = 3 ∨ kq.pka = 17) := by
      intro q hq kq hkq
      rcases List.mem_cons.mp hq with rfl | hq
      · rw [hkp] at hkq
        obtain rfl := Option.some.inj hkq
        exact hc
      · rw [hT q hq] at hkq
        cases hkq
    constructor
    · rintro ⟨before, q, after, hsplit, hq, hcan, hbefore⟩
      rw [show (⟨.pub, withSubkey x s k.packets⟩ : KeyObj E).packets = _ from e'] at hsplit
      rcases List.append_eq_append_iff.mp hsplit with ⟨m, h1, h2⟩ | ⟨m, h1, h2⟩
      · cases m with
        | nil =>
          simp only [List.nil_append, List.cons.injEq] at h2
          rw [← h2.1] at hq
          exact (Option.some.inj hq).symm
        | cons y m =>
          simp only [List.cons_append, List.cons.injEq] at h2
          exact absurd hx (hbefore y (by rw [h1]; simp) x (by rw [← h2.1]; rfl))
      · cases m with
        | nil =>
          simp only [List.nil_append, List.cons.injEq] at h2
          rw [h2.1] at hq
          exact (Option.some.inj hq).symm
        | cons y m =>
          simp only [List.cons_append, List.cons.injEq] at h2
          exact absurd hcan (first q (by rw [h1, h2.1]; simp) kp hq)
    · rintro rfl
      exact ⟨_, _, _, e', rfl, hx, first⟩
  rw [C37_detached cr hcr rawE _ hsz']
  unfold GoodDocument
  simp only [hm, hid, hsign, true_and, exists_eq_left]

/-- An ElGamal key, and a stranger's RSA subkey. -/
example : let k : KeyObj Empty := ⟨.pub, [⟨.new, false, .publicKey ⟨4, 0, 16, [23, 5, 8], 0⟩⟩, ⟨.new, false, .userId [97]⟩, ⟨.new, false, .sig (c30Sig 0x13)⟩]⟩
    k.meaningful = .ok true ∧ k.packets.head?.bind (·.body.keyPart) = some ⟨4, 0, 16, [23, 5, 8], 0⟩ ∧ c36Tag5.key.pka = 1 ∧
      KeyObj.meaningful (⟨.pub, withSubkey c36Tag5.key (c30Sig 0x18) k.packets⟩ : KeyObj Empty) = .ok true := by decide +kernel

end OpenPGP
