import Verif.Model.GpgRevoke
import Verif.Props.C43Cert

/-!
# C72: revoked subkeys with `GPG_COMPATIBLE`

What C43_subkey says holds with the option too, except for the place of the revocation.
-/
namespace OpenPGP
open Rfc
variable {E : Type}

theorem matched_keys {cr : Crypto} {id : Bytes} {p : Pkt E} {k : KeyPkt} (ht : p.body.tag = 7 ∨ p.body.tag = 14) (hk : p.body.keyPart = some k) {b : Bool}
    (h : keyidContains cr id k = .ok b) : b = true ↔ matchesId cr id p := by
  obtain ⟨kid, hkid, hc⟩ := Out.bind_eq_ok.mp h
  obtain rfl := Out.ok.inj hc
  constructor
  · exact fun h => ⟨ht, k, kid, hk, hkid, h⟩
  · rintro ⟨-, k', kid', h1, h2, h3⟩
    obtain rfl := Option.some.inj (h1.symm.trans hk)
    obtain rfl := Out.ok.inj (h2.symm.trans hkid)
    exact h3

open Classical in
/-- Each packet is replaced by its public form, and behind each subkey with the ID stands the revocation. -/
theorem subkeyInsertGpg_eq {cr : Crypto} {id : Bytes} {s : Tag2 E} : ∀ {ps r : List (Pkt E)}, (∀ p ∈ ps, p.body.tag ≠ 5) → (∀ p ∈ ps, ∀ t, p.body.secretPart = some t → t.Sound) →
    subkeyInsertGpg cr id s ps = .ok r → r = ps.flatMap fun p => if matchesId cr id p then [publicPkt p, sigPkt s] else [publicPkt p]
  | [], r, _, _, h => (Out.ok.inj h).symm
  | p :: ps, r, ht, hsd, h => by
    have ih := fun {r'} h' => subkeyInsertGpg_eq (cr := cr) (id := id) (s := s) (ps := ps) (r := r') (fun q hq => ht q (by simp [hq])) (fun q hq => hsd q (by simp [hq])) h'
    rw [List.flatMap_cons]
    unfold subkeyInsertGpg at h
    split at h
    · rename_i t hb
      rw [Tag5.getPublic_eq (hsd p (by simp) t (by rw [hb]; rfl)), Out.ok_bind] at h
      obtain ⟨here, hh, h⟩ := Out.bind_eq_ok.mp h
      obtain ⟨r', hr', h⟩ := Out.bind_eq_ok.mp h
      obtain rfl := Out.ok.inj h
      have hp : publicPkt p = ⟨.new, false, .publicSubkey t.key.reread⟩ := by rw [publicPkt, hb]
      rw [ih hr', hp]
      simp only [← matched_keys (Or.inl (by rw [hb]; rfl)) (by rw [hb]; rfl) hh]
      split <;> rfl
    · rename_i k hb
      obtain ⟨here, hh, h⟩ := Out.bind_eq_ok.mp h
      obtain ⟨r', hr', h⟩ := Out.bind_eq_ok.mp h
      obtain rfl := Out.ok.inj h
      have hp : publicPkt p = p := by rw [publicPkt, hb]
      rw [ih hr', hp]
      simp only [← matched_keys (Or.inr (by rw [hb]; rfl)) (by rw [hb]; rfl) hh]
      split <;> rfl
    · rename_i h1 h2
      obtain ⟨r', hr', h⟩ := Out.bind_eq_ok.mp h
      obtain rfl := Out.ok.inj h
      have hn : ¬ matchesId cr id p := by
        rintro ⟨hsub, -⟩
        obtain ⟨f, x, b⟩ := p
        cases b <;> simp [Body.tag] at hsub <;> first
          | exact absurd rfl (h1 _)
          | exact absurd rfl (h2 _)
          | omega
      have hp : publicPkt p = p := by
        obtain ⟨f, x, b⟩ := p
        cases b <;> first
          | rfl
          | exact absurd rfl (h1 _)
          | exact (ht _ List.mem_cons_self rfl).elim
      rw [ih hr', if_neg hn, hp]
      rfl

open Classical in
theorem flat_none {cr : Crypto} {id : Bytes} (l : List (Pkt E)) (s : Tag2 E) (hl : ∀ q ∈ l, ¬ matchesId cr id q) :
    (l.flatMap fun p => if matchesId cr id p then [publicPkt p, sigPkt s] else [publicPkt p]) = l.map publicPkt := by
  induction l with
  | nil => rfl
  | cons q l ih => rw [List.flatMap_cons, if_neg (hl q (by simp)), ih (fun x hx => hl x (by simp [hx]))]; rfl

/-- **Revoking a subkey with the option**: the result is the public form of the target with the revocation directly behind that subkey; it is a good signature of the signer over
this subkey; the result is well-formed and holds nothing secret. -/
theorem C72_revoked_subkey (cr : Crypto) (hcr : cr.Ok) (rawE : E → Bytes) (a : RevokeArgs E) (before : List (Pkt E)) (t : Tag5) (pri : List Nat)
    (h : CanSign cr a.sign before t pri) (hsound : a.target.Sound) (now : Nat) (draws : List Nat) (id : Bytes) (p sk : Pkt E) (pre post : List (Pkt E))
    (hp : a.target.packets = p :: (pre ++ sk :: post)) (hsk : matchesId cr id sk) (hone : ∀ q ∈ pre ++ post, ¬ matchesId cr id q)
    (r : KeyObj E) (hr : revokeSubkeyGpg cr rawE a now draws id = .ok r) (hne : r.packets ≠ []) :
    ∃ s sub, sk.body = .secretSubkey sub ∧ r = ⟨.pub, (p :: pre).map publicPkt ++ publicPkt sk :: sigPkt s :: post.map publicPkt⟩ ∧
      Revocation cr rawE t 0x28 (.key sub.key) s ∧ r.meaningful = .ok true ∧ NoSecrets r := by
  have nope : ∀ {x : KeyObj E}, (pure noPublicKey : Out (KeyObj E)) = .ok x → x.packets = [] := by
    intro x hx
    cases Out.ok.inj hx
    rfl
  rw [revokeSubkeyGpg] at hr
  obtain ⟨v, hv, hr1⟩ := Out.bind_eq_ok.mp hr
  split at hr1
  · exact absurd (nope hr1) hne
  obtain ⟨os, hos, hr2⟩ := Out.bind_eq_ok.mp hr1
  cases os with
  | none => exact absurd (nope hr2) hne
  | some s =>
    obtain ⟨hvalid, -, pre1, sk1, post1, sub, kid, he, hb1, hkid, hcon, -, hrev⟩ := revokeSubkeySig_ok hcr h hos
    obtain ⟨-, -, htm, -⟩ := RevokeArgs.valid_true hvalid
    obtain ⟨htag, htail⟩ := tags_tail htm hp
    have hm1 : matchesId cr id sk1 := ⟨Or.inl (by rw [hb1]; rfl), sub.key, kid, by rw [hb1]; rfl, hkid, hcon⟩
    have hsk1 : sk1 = sk := by
      have hmem : sk1 ∈ p :: (pre ++ sk :: post) := by rw [← hp, he]; simp
      rcases List.mem_cons.mp hmem with rfl | hmem
      · rw [hb1] at htag; simp [Body.tag] at htag
      rcases List.mem_append.mp hmem with hmem | hmem
      · exact absurd hm1 (hone _ (by simp [hmem]))
      rcases List.mem_cons.mp hmem with rfl | hmem
      · rfl
      · exact absurd hm1 (hone _ (by rw [List.mem_append]; exact Or.inr hmem))
    subst hsk1
    dsimp only at hr2
    rw [hp] at hr2
    dsimp only at hr2
    rw [publicPrimary_eq htag (hsound p (by rw [hp]; simp)), Out.ok_bind] at hr2
    obtain ⟨r', hr', hr3⟩ := Out.bind_eq_ok.mp hr2
    have hr'' := subkeyInsertGpg_eq (fun q hq => (htail q hq).1) (fun q hq => hsound q (by rw [hp]; exact List.mem_cons_of_mem _ hq)) hr'
    rw [List.flatMap_append, List.flatMap_cons, if_pos hsk, flat_none pre s (fun q hq => hone q (by simp [hq])), flat_none post s (fun q hq => hone q (by simp [hq]))] at hr''
    subst hr''
    obtain rfl := Out.ok.inj hr3
    refine ⟨s, sub, hb1, by simp, hrev, ?_, ?_⟩
    · have := meaningful_public hsound htm
      rw [KeyObj.meaningful, C30_meaningful_iff .pub 6 14 rfl, hp] at this
      rw [KeyObj.meaningful, C30_meaningful_iff .pub 6 14 rfl]
      have h1 : TransferableKey false 6 14 ((publicPkt p).body :: ((pre.map publicPkt).map (·.body) ++ (publicPkt sk1).body :: ([] ++ (post.map publicPkt).map (·.body)))) := by
        simpa using this
      have h2 := transferable_insert_subkey (x := (sigPkt s).body) (by decide) (by simp only [publicPkt, hb1]; rfl) h1 (by simp) ⟨s, rfl⟩
      simpa using h2
    · refine noSecrets_of fun q hq => ?_
      simp only [List.mem_cons, List.mem_append, List.mem_map, List.cons_append, List.nil_append] at hq
      rcases hq with rfl | ⟨y, -, rfl⟩ | rfl | rfl | ⟨y, -, rfl⟩
      · exact Or.inl ⟨_, rfl⟩
      · exact Or.inl ⟨_, rfl⟩
      · exact Or.inl ⟨_, rfl⟩
      · exact Or.inr ⟨_, rfl⟩
      · exact Or.inl ⟨_, rfl⟩

/-- **The same packets as without the option**, in another order: the revocation and the first signature of the subkey are exchanged. -/
theorem C72_revoked_order (cr : Crypto) (hcr : cr.Ok) (rawE : E → Bytes) (a : RevokeArgs E) (before : List (Pkt E)) (t : Tag5) (pri : List Nat)
    (h : CanSign cr a.sign before t pri) (hsound : a.target.Sound) (now : Nat) (draws : List Nat) (id : Bytes) (p sk : Pkt E) (pre post : List (Pkt E))
    (hp : a.target.packets = p :: (pre ++ sk :: post)) (hsk : matchesId cr id sk) (hone : ∀ q ∈ pre ++ post, ¬ matchesId cr id q)
    (r r' : KeyObj E) (hr : revokeSubkeyGpg cr rawE a now draws id = .ok r) (hr' : revokeSubkey cr rawE a now draws id = .ok r') (hne : r.packets ≠ []) (hne' : r'.packets ≠ []) :
    ∃ front x s rest, r.packets = front ++ sigPkt s :: x :: rest ∧ r'.packets = front ++ x :: sigPkt s :: rest := by
  obtain ⟨x, post', s', sub', rfl, hx, -, e', -⟩ := C43_subkey cr hcr rawE a before t pri h hsound now draws id p sk pre post hp hsk hone r' hr' hne'
  obtain ⟨s, sub, -, e, -⟩ := C72_revoked_subkey cr hcr rawE a before t pri h hsound now draws id p sk pre (x :: post') hp hsk hone r hr hne
  have nope : ∀ {x : KeyObj E}, (pure noPublicKey : Out (KeyObj E)) = .ok x → x.packets = [] := by
    intro x hx
    cases Out.ok.inj hx
    rfl
  have hs : s = s' := by
    rw [revokeSubkeyGpg] at hr
    rw [revokeSubkey] at hr'
    obtain ⟨v, hv, hr1⟩ := Out.bind_eq_ok.mp hr
    rw [hv, Out.ok_bind] at hr'
    split at hr1
    · exact absurd (nope hr1) hne
    rename_i hv1
    rw [if_neg hv1] at hr'
    obtain ⟨os, hos, hr2⟩ := Out.bind_eq_ok.mp hr1
    rw [hos, Out.ok_bind] at hr'
    cases os with
    | none => exact absurd (nope hr2) hne
    | some w =>
      obtain ⟨hvalid, -⟩ := revokeSubkeySig_ok hcr h hos
      obtain ⟨-, -, htm, -⟩ := RevokeArgs.valid_true hvalid
      obtain ⟨htag, htail⟩ := tags_tail htm hp
      dsimp only at hr2 hr'
      rw [hp] at hr2 hr'
      dsimp only at hr2 hr'
      rw [publicPrimary_eq htag (hsound p (by rw [hp]; simp)), Out.ok_bind] at hr2 hr'
      obtain ⟨y, hy, hr2⟩ := Out.bind_eq_ok.mp hr2
      obtain ⟨y', hy', hr'⟩ := Out.bind_eq_ok.mp hr'
      have k1 := subkeyInsertGpg_eq (fun q hq => (htail q hq).1) (fun q hq => hsound q (by rw [hp]; exact List.mem_cons_of_mem _ hq)) hy
      have k2 := subkeyInsert_one hsk (fun q hq => hone q (by simp [hq])) (fun q hq => hone q (by simp [hq]))
        (fun q hq => (htail q hq).1) (fun q hq => hsound q (by rw [hp]; exact List.mem_cons_of_mem _ hq)) hy'
      rw [List.flatMap_append, List.flatMap_cons, if_pos hsk, flat_none pre w (fun q hq => hone q (by simp [hq])), flat_none (x :: post') w (fun q hq => hone q (List.mem_append_right _ hq))] at k1
      subst k1 k2
      rw [← Out.ok.inj hr2] at e
      rw [← Out.ok.inj hr'] at e'
      have e := congrArg KeyObj.packets e
      have e' := congrArg KeyObj.packets e'
      simp only [List.map_cons, List.cons_append, List.nil_append, List.cons.injEq, true_and, List.append_cancel_left_eq, and_true] at e e'
      have inj : ∀ {u v : Tag2 E}, sigPkt u = sigPkt v → u = v := by
        intro u v huv
        injection huv with _ _ hb
        injection hb
      exact (inj e.symm).trans (inj e')
  subst hs
  refine ⟨(p :: pre).map publicPkt ++ [publicPkt sk], x, s, post'.map publicPkt, ?_, ?_⟩
  · rw [e]; simp [publicPkt_sig hx]
  · rw [e']; simp

/-- Certificates of the other kinds are treated alike with and without the option, so C43 has them. -/
theorem C72_with_cert_others (cr : Crypto) (rawE : E → Bytes) (k : KeyObj E) (rev : PgpObj (Pkt E)) (h : ∀ s, revocationPacket rev = some s → s.type ≠ 0x28) :
    revokeWithCertGpg cr rawE k rev = revokeWithCert cr rawE k rev := by
  unfold revokeWithCertGpg revokeWithCert
  cases hr : revocationPacket rev with
  | none => rfl
  | some s =>
    have hc : ∀ ps : List (Pkt E), certRestGpg s ps = certRest s ps := by
      intro ps
      simp only [certRestGpg, certRest, if_neg (h s hr)]
      rfl
    simp only [hc]
    rfl

/-- **Failure: the place of subkey revocations.** With a certificate the revocation is put behind the first subkey, whichever it revokes, with the option too. -/
theorem C72_with_cert_fails (cr : Crypto) (rawE : E → Bytes) (k : KeyObj E) (hsound : k.Sound) (rev : PgpObj (Pkt E)) (s : Tag2 E)
    (hr : revocationPacket rev = some s) (ht : s.type = 0x28) (hv : verifyRevoke cr rawE k rev = .ok .yes) (p sk : Pkt E)
    (pre post : List (Pkt E)) (hp : k.packets = p :: (pre ++ sk :: post)) (hpre : ∀ q ∈ pre, ¬ (q.body.tag = 7 ∨ q.body.tag = 14))
    (hsk : sk.body.tag = 7 ∨ sk.body.tag = 14) :
    revokeWithCertGpg cr rawE k rev = .ok ⟨.pub, publicPkt p :: (pre ++ publicPkt sk :: sigPkt s :: post)⟩ := by
  have hm : k.meaningful = .ok true := by
    have h := hv
    rw [verifyRevoke] at h
    obtain ⟨g, hg, h⟩ := Out.bind_eq_ok.mp h
    cases g with
    | true => exact hg
    | false => exact absurd (Out.ok.inj h) (by decide)
  obtain ⟨htag, htail⟩ := tags_tail hm hp
  rw [revokeWithCertGpg, hm, Out.ok_bind]
  simp only [Bool.not_true, Bool.false_eq_true, if_false, hr, hv, Out.ok_bind, hp]
  rw [publicPrimary_eq htag (hsound p (by rw [hp]; simp)), Out.ok_bind]
  have h1 : ∀ q ∈ pre, (!isSubkeyPkt q) = true := by
    intro q hq
    have := hpre q hq
    simp only [isSubkeyPkt, Bool.not_eq_true', Bool.or_eq_false_iff, beq_eq_false_iff_ne]
    omega
  have h2 : ¬ (!isSubkeyPkt sk) = true := by
    simp only [isSubkeyPkt, Bool.not_eq_true', Bool.or_eq_false_iff, beq_eq_false_iff_ne]
    omega
  have hc : certRestGpg s (pre ++ sk :: post) = .ok (pre ++ publicPkt sk :: sigPkt s :: post) := by
    rw [certRestGpg, List.dropWhile_append_of_pos h1, List.takeWhile_append_of_pos h1, List.dropWhile_cons, if_neg h2, List.takeWhile_cons, if_neg h2]
    dsimp only
    rw [publicLater_eq (by omega) (hsound sk (by rw [hp]; simp)), Out.ok_bind, List.append_nil, if_pos ht]
    rfl
  rw [hc]
  simp [ht]

/-! ## A case -/

/-- The key of C43 with two user IDs and two subkeys: the second subkey (with the ID 22...) is revoked; its packets are those of the build without the option in another order. -/
example : ∃ r, revokeSubkeyGpg c43Crypto noE (c43Args [[97], [98]] [1, 2]) 7 [3] [22] = .ok r ∧
    decide (r.packets.map (fun p => (p.body.tag, match p.body with | .sig s => s.type | _ => 0)) =
      [(6, 0), (13, 0), (2, 0x13), (13, 0), (2, 0x13), (14, 0), (2, 0x18), (14, 0), (2, 0x28), (2, 0x18)]) = true :=
  ok_of_check (P := fun r : KeyObj Empty => decide (r.packets.map (fun p => (p.body.tag, match p.body with | .sig s => s.type | _ => 0)) =
      [(6, 0), (13, 0), (2, 0x13), (13, 0), (2, 0x13), (14, 0), (2, 0x18), (14, 0), (2, 0x28), (2, 0x18)])) (by decide +kernel)

end OpenPGP
