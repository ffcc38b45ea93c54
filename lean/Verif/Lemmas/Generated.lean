import Verif.Props.C45
import Verif.Lemmas.Printed

/-!
# Generated keys are written and read without loss
-/
namespace OpenPGP
open Rfc
variable {E : Type}

theorem MadeBy.wf {n : Nat} {cr : Crypto} (hcr : cr.Ok) {key : KeyPkt} {now : Nat} (hnow : now < 2 ^ 32) {type hash : UInt8} {c : Signed (SigAt n)}
    {s : Tag2 (SigAt n)} (h : MadeBy cr (rawAt n) key now type hash c s) (hb : ∀ m ∈ key.mpi, bitsize m ≤ 65528) : wfSig (n + 1) s := by
  obtain ⟨kid, hk, -, hu⟩ := h.issuer
  have hkl := keyid_length cr hcr hk
  obtain ⟨i, -, ⟨⟨l, hl⟩, -⟩, hleft⟩ := h.good
  have w1 : (writeSubpackets (rawAt n) ([⟨false, .sigTime now⟩] : List (Sub (SigAt n)))).length = 6 := by
    simp [writeSubpackets, Sub.write, SubBody.raw, subLengthOctets]
  have w2 : (writeSubpackets (rawAt n) ([⟨false, .issuer kid⟩] : List (Sub (SigAt n)))).length = 10 := by
    simp [writeSubpackets, Sub.write, SubBody.raw, subLengthOctets, hkl]
  have hl2 : 2 ≤ l := by
    rcases hashAlg_cases hl with h | h | h | h | h | h | h <;> rw [h] at hl <;> simp [hashLen] at hl <;> omega
  refine ⟨?_, ?_, ?_, Or.inl ⟨h.version, ?_, ?_, ?_, ?_, h.rest⟩⟩
  · rw [hleft, List.length_take, hcr.hash_len _ _ i hl]; omega
  · rw [h.pka_eq]; exact h.sizes.1
  · intro v hv
    obtain ⟨m, hm, hle⟩ := h.sizes.2 v hv
    have := hb m hm
    rw [bitsize] at this ⊢
    omega
  · rw [h.time]
    intro x hx
    obtain rfl := List.mem_singleton.mp hx
    exact ⟨hnow, by simp, by simp, by simp⟩
  · rw [hu]
    intro x hx
    obtain rfl := List.mem_singleton.mp hx
    exact ⟨trivial, by simp, by simp, by simp⟩
  · rw [h.time]; exact lt_of_eq_of_lt w1 (by decide)
  · rw [hu]; exact lt_of_eq_of_lt w2 (by decide)

theorem placed_of {n : Nat} : ∀ (ps : List (Pkt (SigAt n))) (off : Nat), (∀ p ∈ ps, ∃ b r, p = newPkt b ∧ b.raw (rawAt n) = .ok r ∧ r.length < 8128 ∧
    b.tag < 64 ∧ knownTag b.tag = true ∧ ∀ start, b.okAt n start) → placed n off ps
  | [], _, _ => trivial
  | p :: ps, off, h => by
    obtain ⟨b, r, rfl, h1, h2, h3, h4, h5⟩ := h p (by simp)
    exact ⟨r, h1, ⟨h3, h4, by simp only [newPkt, readableLen]; omega⟩, rfl, h5 _, placed_of ps _ fun q hq => h q (by simp [hq])⟩

theorem KeyPkt.Sound.wfV4_of {k : KeyPkt} (h : k.Sound) (hv : k.version = 4) : k.wfV4 := by
  rcases h with h | h
  · exact h
  · rw [hv] at h; exact absurd h.1 (by decide)

/-- Of the secret key, and of its public part. -/
theorem Generated.placed {n : Nat} {cr : Crypto} (hcr : cr.Ok) {c : KeyConfig} {now : Nat} (hnow : now < 2 ^ 32) {k : KeyObj (SigAt n)} {primary : Tag5}
    {pri : List Nat} {sigs : List (Tag2 (SigAt n))} {subs : List (Tag5 × Tag2 (SigAt n) × List Nat)}
    (h : Generated cr (rawAt n) c now k primary pri sigs subs) (hlen : ∀ p ∈ k.packets, ∀ r, p.body.raw (rawAt n) = .ok r → r.length < 8128) :
    OpenPGP.placed n 0 k.packets ∧ OpenPGP.placed n 0 (k.packets.map publicPkt) := by
  have hb := h.sound.1.bits
  have hmem : ∀ p ∈ k.packets, (∃ b, p = newPkt b ∧ ((∃ t, (b = .secretKey t ∨ b = .secretSubkey t) ∧ t.key.wfV4 ∧ t.protectionWf) ∨ (∃ u, b = .userId u) ∨
      ∃ s, b = .sig s ∧ wfSig (n + 1) s ∧ s.version = 4)) := by
    intro p hp
    rw [h.packets] at hp
    rcases List.mem_cons.mp hp with rfl | hp
    · exact ⟨_, rfl, Or.inl ⟨primary, Or.inl rfl, h.sound.1.wfV4_of h.fields.1, h.protection⟩⟩
    rcases List.mem_append.mp hp with hp | hp
    · obtain ⟨q, hq, hp⟩ := List.mem_flatMap.mp hp
      have hm := forall₂_zip h.users q hq
      simp only [List.mem_cons, List.not_mem_nil, or_false] at hp
      rcases hp with rfl | rfl
      · exact ⟨_, rfl, Or.inr (Or.inl ⟨_, rfl⟩)⟩
      · exact ⟨_, rfl, Or.inr (Or.inr ⟨_, rfl, hm.wf hcr hnow hb, hm.version⟩)⟩
    · obtain ⟨q, hq, hp⟩ := List.mem_flatMap.mp hp
      obtain ⟨c', -, hm⟩ := forall₂_right h.subkeys q hq
      simp only [List.mem_cons, List.not_mem_nil, or_false] at hp
      rcases hp with rfl | rfl
      · exact ⟨_, rfl, Or.inl ⟨q.1, Or.inr rfl, hm.sound.1.wfV4_of hm.fields.1, hm.protection⟩⟩
      · exact ⟨_, rfl, Or.inr (Or.inr ⟨_, rfl, hm.binding.wf hcr hnow hb, hm.binding.version⟩)⟩
  constructor
  · refine placed_of _ _ fun p hp => ?_
    obtain ⟨b, rfl, hc⟩ := hmem p hp
    have hl := hlen _ hp
    rcases hc with ⟨t, rfl | rfl, h1, h2⟩ | ⟨u, rfl⟩ | ⟨s, rfl, h1, h2⟩
    · obtain ⟨r, hr⟩ := Tag5.raw_ok h2
      exact ⟨_, r, rfl, hr, hl r hr, by simp [Body.tag], by simp [Body.tag, knownTag], fun _ => ⟨Or.inl h1, h2⟩⟩
    · obtain ⟨r, hr⟩ := Tag5.raw_ok h2
      exact ⟨_, r, rfl, hr, hl r hr, by simp [Body.tag], by simp [Body.tag, knownTag], fun _ => ⟨Or.inl h1, h2⟩⟩
    · exact ⟨_, u, rfl, rfl, hl u rfl, by simp [Body.tag], by simp [Body.tag, knownTag], fun _ => trivial⟩
    · exact ⟨_, _, rfl, rfl, hl _ rfl, by simp [Body.tag], by simp [Body.tag, knownTag], fun _ => ⟨h1, h2⟩⟩
  · refine placed_of _ _ fun p' hp' => ?_
    obtain ⟨p, hp, rfl⟩ := List.mem_map.mp hp'
    obtain ⟨b, rfl, hc⟩ := hmem p hp
    have hl := hlen _ hp
    have hsec : ∀ t : Tag5, t.key.wfV4 → t.protectionWf → (∀ r, t.raw = .ok r → r.length < 8128) → t.key.reread = t.key ∧ t.key.rawCommon.length < 8128 := by
      intro t h1 h2 h3
      obtain ⟨r, hr⟩ := Tag5.raw_ok h2
      have := h3 r hr
      rw [Tag5.raw] at hr
      obtain ⟨mid, -, hr⟩ := Out.bind_eq_ok.mp hr
      obtain rfl := Out.ok.inj hr
      refine ⟨by rw [KeyPkt.reread, if_neg (by rw [h1.1]; decide)], ?_⟩
      simp only [List.length_append] at this
      omega
    rcases hc with ⟨t, rfl | rfl, h1, h2⟩ | ⟨u, rfl⟩ | ⟨s, rfl, h1, h2⟩
    · obtain ⟨e, hlt⟩ := hsec t h1 h2 hl
      exact ⟨.publicKey t.key, _, by simp [publicPkt, newPkt, e], rfl, hlt, by simp [Body.tag], by simp [Body.tag, knownTag], fun _ => Or.inl h1⟩
    · obtain ⟨e, hlt⟩ := hsec t h1 h2 hl
      exact ⟨.publicSubkey t.key, _, by simp [publicPkt, newPkt, e], rfl, hlt, by simp [Body.tag], by simp [Body.tag, knownTag], fun _ => Or.inl h1⟩
    · exact ⟨_, u, rfl, rfl, hl u rfl, by simp [Body.tag], by simp [Body.tag, knownTag], fun _ => trivial⟩
    · exact ⟨_, _, rfl, rfl, hl _ rfl, by simp [Body.tag], by simp [Body.tag, knownTag], fun _ => ⟨h1, h2⟩⟩

end OpenPGP
