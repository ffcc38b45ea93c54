import Verif.Props.C43

/-!
# C43: revocation certificates
-/
namespace OpenPGP
open Rfc
variable {E : Type}

/-- Values that are good for one digest make verification answer, not fail, for every other digest. -/
theorem verifyPka_definite {hash pka : UInt8} {digest digest' : Bytes} {pub sig : List Nat} (hl : hashLen hash = some digest.length)
    (hl' : hashLen hash = some digest'.length) (hb : ∀ n, pub[0]? = some n → n.log2 < 2 ^ 32) (h : SignatureHolds hash pka digest pub sig) :
    ∃ v, verifyPka digest' hash pka pub sig = .ok v ∧ v ≠ .error := by
  have hdef : ∀ b, Verdict.ofBool b ≠ .error := by decide
  rcases h with ⟨h1, n, e, s, der, h0, he, hs, hder, hodd, hk, -⟩ | ⟨h17, p, q, g, y, r, s, w, hp, hq, hg, hy, hr, hs, hodd, hr0, hrq, -⟩
  · have hlen : digest.length = digest'.length := Option.some.inj (hl.symm.trans hl')
    have := hb n h0
    have hne : encodedDigest der digest' ((n.log2 + 1) / 8) ≠ [] := by simp [encodedDigest]
    have hem : emsa hash digest' (bitsize n / 8) = .ok (encodedDigest der digest' ((n.log2 + 1) / 8)) := by
      rw [bitsize, C19_encode hl' hder (by omega) (by omega)]
      rfl
    rw [verifyPka, if_pos h1, vecAt_eq_ok.mpr h0, Out.ok_bind, hem, Out.ok_bind, rsaVerify, rawtompi_eq, if_neg hne, Out.ok_bind, rsaVerifyInt,
      vecAt_eq_ok.mpr hs, Out.ok_bind, rsaEncrypt, vecAt_eq_ok.mpr h0, vecAt_eq_ok.mpr he, Out.ok_bind, Out.ok_bind, powm_odd hodd]
    exact ⟨_, rfl, hdef _⟩
  · have hne : digest' ≠ [] := by
      rintro rfl
      exact absurd (hashLen_pos hl') (by simp)
    rw [verifyPka, if_neg (by rw [h17]; decide), if_pos h17, dsaVerify, rawtompi_eq, if_neg hne, Out.ok_bind]
    have key : dsaVerifyInt (num digest') sig pub = dsaVerifyInt (num digest') [r, s] [p, q, g, y] := by
      simp only [dsaVerifyInt, vecAt, hp, hq, hg, hy, hr, hs, List.getElem?_cons_zero, List.getElem?_cons_succ]
    rw [key, dsaVerify_iff hodd (by omega)]
    exact ⟨_, rfl, hdef _⟩

theorem firstVerdict_of {α : Type} {f : α → Out Verdict} : ∀ {l : List α} {x : α}, x ∈ l → f x = .ok .yes →
    (∀ y ∈ l, ∃ v, f y = .ok v ∧ v ≠ .error) → firstVerdict f l = .ok .yes
  | y :: l, x, hx, hy, h => by
    rw [firstVerdict]
    obtain ⟨v, hv, hne⟩ := h y (by simp)
    rcases List.mem_cons.mp hx with rfl | hx
    · rw [hy]; rfl
    · rw [hv, Out.ok_bind]
      cases v with
      | yes => rfl
      | error => exact absurd rfl hne
      | no => exact firstVerdict_of hx hy fun z hz => h z (by simp [hz])

/-- What is prescribed for a version 4 signature is what the library hashes. -/
theorem input_of_prescribed {rawE : E → Bytes} {c : Signed E} {s : Tag2 E} {i : Bytes} (hv : s.version = 4)
    (hid : ∀ k id, c = .user k id → id.tag = 13 ∨ id.tag = 17) (h : Prescribed rawE c s i) : libraryInput rawE c s = .ok i := by
  obtain ⟨hf, o, ho, hh⟩ := h
  rcases ho with ⟨-, ho⟩ | ⟨h3, -⟩
  · rw [C32_prescribed rawE c s hv hf hid, ho, Out.ok_bind]
    rw [← addtrailer_iff, addtrailer_v4 rawE o s hv] at hh
    exact hh
  · rw [hv] at h3
    exact absurd h3 (by decide)

theorem revocationPacket_cert {s : Tag2 E} (h : s.type = 0x20 ∨ s.type = 0x28 ∨ s.type = 0x30) : revocationPacket (certOf (some s)) = some s := by
  rw [revocationPacket, if_neg (by simp [certOf])]
  simp only [certOf, if_pos h]

theorem verifyWith_definite {cr : Crypto} (hcr : cr.Ok) {kp : KeyPkt} (hb : ∀ n, kp.mpi[0]? = some n → n.log2 < 2 ^ 32) {s : Tag2 E} {i i' : Bytes}
    (h : GoodValues cr kp s i) : ∃ v, (digestOf cr s (.ok i') >>= fun d => verifyWith d kp s) = .ok v ∧ v ≠ .error := by
  obtain ⟨⟨n, hn⟩, hh⟩ := h
  rw [digestOf, Out.ok_bind, hashUse, if_pos (by rw [hn]; rfl), Out.ok_bind]
  exact verifyPka_definite (by rw [hn, hcr.hash_len _ _ _ hn]) (by rw [hn, hcr.hash_len _ _ _ hn]) hb hh

/-- A certificate made for a version 4 key with its own primary key revokes the public key. -/
theorem C43_key_cert (cr : Crypto) (hcr : cr.Ok) (rawE : E → Bytes) (a : RevokeArgs E) (t : Tag5) (pri : List Nat) (h : CanSign cr a.sign [] t pri)
    (hv : a.version = 4) (hk : t.key.version = 4) (now : Nat) (draws : List Nat) (c : PgpObj (Pkt E)) (pub : KeyObj E)
    (hc : revokeKeyCert cr rawE a now draws = .ok c) (hne : c.packets ≠ []) (hpub : a.signer.getPublic = .ok pub) :
    verifyRevoke cr rawE pub c = .ok .yes := by
  rw [revokeKeyCert] at hc
  obtain ⟨os, hos, hc⟩ := Out.bind_eq_ok.mp hc
  obtain rfl := Out.ok.inj hc
  cases os with
  | none => exact absurd rfl hne
  | some s =>
    obtain ⟨-, -, hsv, hrev⟩ := revokeKeySig_ok hcr h hos
    rw [hv] at hsv
    obtain ⟨pub', hpub', hpk, hpm, hsz, ⟨kp, hsk, hmpi, hkk⟩, hown⟩ := h.public
    rw [show a.sign.pri = a.signer from rfl, hpub] at hpub'
    obtain rfl := Out.ok.inj hpub'
    obtain ⟨kid, hkid, hu⟩ := hrev.issuer
    obtain ⟨i, hi, hg, -⟩ := hrev.good
    rw [verifyRevoke, hpm, Out.ok_bind]
    simp only [Bool.not_true, Bool.false_eq_true, if_false]
    rw [revocationPacket_cert (Or.inl hrev.type)]
    dsimp only
    rw [hown rfl, hkid, Out.ok_bind, getKeyid_v4 s hsv kid hu, Out.ok_bind, if_neg (by simp), (signingFields_iff hpm kp).mpr hsk, Out.ok_bind]
    dsimp only
    rw [if_pos hrev.type]
    obtain ⟨p, after, hp, ht⟩ := h.packets
    have hpe := hpub
    rw [getPublic_eq a.signer h.sound] at hpe
    obtain rfl := Out.ok.inj hpe
    rw [show a.sign.pri.packets = a.signer.packets from rfl] at hp
    have hkp : (publicPkt p).body.keyPart = some t.key := by
      rw [keyPart_publicPkt, ← (KeyPkt.samePublic_reread t.key).2.2.2.2 hk]
      cases hb : p.body with
      | secretKey t' => rw [hb] at ht; obtain rfl := Option.some.inj ht; rfl
      | secretSubkey t' => rw [hb] at ht; obtain rfl := Option.some.inj ht; rfl
      | _ => rw [hb] at ht; exact absurd ht (by simp [Body.secretPart])
    simp only [hp, List.nil_append, List.map_cons]
    rw [hkp]
    dsimp only
    refine (verifyWith_iff cr hcr (hsk.sized hsz) s _).mpr ⟨i, ?_, hg.1, hmpi ▸ hg.2⟩
    have := input_of_prescribed hsv (by rintro _ _ h; cases h) hi
    rw [libraryInput, if_pos hrev.type, sign20Input, if_neg (not_not.mpr hrev.type)] at this
    exact this

/-- A certificate for a version 4 subkey of a key, made with the primary key, revokes a subkey of the public key. -/
theorem C43_subkey_cert (cr : Crypto) (hcr : cr.Ok) (rawE : E → Bytes) (a : RevokeArgs E) (t : Tag5) (pri : List Nat) (h : CanSign cr a.sign [] t pri)
    (htarget : a.target = a.signer) (hv : a.version = 4) (hk : ∀ p ∈ a.target.packets, ∀ k, p.body.keyPart = some k → k.version = 4)
    (now : Nat) (draws : List Nat) (id : Bytes) (c : PgpObj (Pkt E)) (pub : KeyObj E)
    (hc : revokeSubkeyCert cr rawE a now draws id = .ok c) (hne : c.packets ≠ []) (hpub : a.signer.getPublic = .ok pub) :
    verifyRevoke cr rawE pub c = .ok .yes := by
  rw [revokeSubkeyCert] at hc
  obtain ⟨os, hos, hc⟩ := Out.bind_eq_ok.mp hc
  obtain rfl := Out.ok.inj hc
  cases os with
  | none => exact absurd rfl hne
  | some s =>
    obtain ⟨-, hsv, pre, sk, post, sub, kid', hps, hskb, -, -, -, hrev⟩ := revokeSubkeySig_ok hcr h hos
    rw [hv] at hsv
    obtain ⟨pub', hpub', hpk, hpm, hsz, ⟨kp, hsk, hmpi, hkk⟩, hown⟩ := h.public
    rw [show a.sign.pri = a.signer from rfl, hpub] at hpub'
    obtain rfl := Out.ok.inj hpub'
    obtain ⟨kid, hkid, hu⟩ := hrev.issuer
    obtain ⟨i, hi, hg, -⟩ := hrev.good
    have hg : GoodValues cr kp s i := ⟨hg.1, hmpi ▸ hg.2⟩
    rw [verifyRevoke, hpm, Out.ok_bind]
    simp only [Bool.not_true, Bool.false_eq_true, if_false]
    rw [revocationPacket_cert (Or.inr (Or.inl hrev.type))]
    dsimp only
    rw [hown rfl, hkid, Out.ok_bind, getKeyid_v4 s hsv kid hu, Out.ok_bind, if_neg (by simp), (signingFields_iff hpm kp).mpr hsk, Out.ok_bind]
    dsimp only
    rw [if_neg (by rw [hrev.type]; decide), if_pos hrev.type]
    have hpe := hpub
    rw [getPublic_eq a.signer h.sound] at hpe
    obtain rfl := Out.ok.inj hpe
    have hver : sub.key.version = 4 := hk sk (by rw [hps]; simp) _ (by rw [hskb]; rfl)
    refine firstVerdict_of (x := .publicSubkey sub.key) ?_ ?_ ?_
    · rw [List.mem_filter]
      refine ⟨?_, by rfl⟩
      rw [List.mem_map]
      refine ⟨publicPkt sk, List.mem_map_of_mem (by rw [← htarget, hps]; simp), ?_⟩
      rw [publicPkt, hskb]
      simp only [(KeyPkt.samePublic_reread sub.key).2.2.2.2 hver]
    · refine (verifyWith_iff cr hcr (hsk.sized hsz) s _).mpr ⟨i, ?_, hg⟩
      have := input_of_prescribed hsv (by rintro _ _ h; cases h) hi
      rw [libraryInput, if_neg (by rw [hrev.type]; decide), if_pos hrev.type] at this
      exact this
    · intro b hb
      rw [List.mem_filter] at hb
      obtain ⟨-, hb⟩ := hb
      have : ∃ i', sign28Input rawE b s = .ok i' := by
        cases b with
        | publicSubkey k => rw [sign28Input, if_neg (not_not.mpr hrev.type), addtrailer_v4 rawE _ s hsv]; exact ⟨_, rfl⟩
        | secretSubkey k => rw [sign28Input, if_neg (not_not.mpr hrev.type), addtrailer_v4 rawE _ s hsv]; exact ⟨_, rfl⟩
        | _ => simp [Body.tag] at hb <;> omega
      obtain ⟨i', hi'⟩ := this
      rw [hi']
      exact verifyWith_definite hcr (hsk.sized hsz) hg

/-- A certificate for a user ID of a version 4 key, made with the primary key, revokes a user ID of the public key. -/
theorem C43_uid_cert (cr : Crypto) (hcr : cr.Ok) (rawE : E → Bytes) (a : RevokeArgs E) (t : Tag5) (pri : List Nat) (h : CanSign cr a.sign [] t pri)
    (htarget : a.target = a.signer) (hv : a.version = 4) (hk : t.key.version = 4)
    (now : Nat) (draws : List Nat) (id : Bytes) (c : PgpObj (Pkt E)) (pub : KeyObj E)
    (hc : revokeUidCert cr rawE a now draws id = .ok c) (hne : c.packets ≠ []) (hpub : a.signer.getPublic = .ok pub) :
    verifyRevoke cr rawE pub c = .ok .yes := by
  rw [revokeUidCert] at hc
  obtain ⟨os, hos, hc⟩ := Out.bind_eq_ok.mp hc
  obtain rfl := Out.ok.inj hc
  cases os with
  | none => exact absurd rfl hne
  | some s =>
    obtain ⟨-, hsv, -, pre, pu, post, u, hps, hub, -, hrev⟩ := revokeUidSig_ok hcr h hos
    rw [hv] at hsv
    obtain ⟨pub', hpub', hpk, hpm, hsz, -, hown⟩ := h.public
    rw [show a.sign.pri = a.signer from rfl, hpub] at hpub'
    obtain rfl := Out.ok.inj hpub'
    obtain ⟨kid, hkid, hu⟩ := hrev.issuer
    obtain ⟨i, hi, hg, -⟩ := hrev.good
    have hpe := hpub
    rw [getPublic_eq a.signer h.sound] at hpe
    obtain rfl := Out.ok.inj hpe
    have hsk : SigningKey (⟨.pub, a.signer.packets.map publicPkt⟩ : KeyObj E) t.key := by
      obtain ⟨p, after, hp, ht⟩ := h.packets
      rw [show a.sign.pri.packets = a.signer.packets from rfl] at hp
      have hkp : (publicPkt p).body.keyPart = some t.key := by
        rw [keyPart_publicPkt, ← (KeyPkt.samePublic_reread t.key).2.2.2.2 hk]
        cases hb : p.body with
        | secretKey t' => rw [hb] at ht; obtain rfl := Option.some.inj ht; rfl
        | secretSubkey t' => rw [hb] at ht; obtain rfl := Option.some.inj ht; rfl
        | _ => rw [hb] at ht; exact absurd ht (by simp [Body.secretPart])
      exact ⟨[], publicPkt p, after.map publicPkt, by simp [hp], hkp, h.pair.canSign, by simp⟩
    rw [verifyRevoke, hpm, Out.ok_bind]
    simp only [Bool.not_true, Bool.false_eq_true, if_false]
    rw [revocationPacket_cert (Or.inr (Or.inr hrev.type))]
    dsimp only
    rw [hown rfl, hkid, Out.ok_bind, getKeyid_v4 s hsv kid hu, Out.ok_bind, if_neg (by simp), (signingFields_iff hpm t.key).mpr hsk, Out.ok_bind]
    dsimp only
    rw [if_neg (by rw [hrev.type]; decide), if_neg (by rw [hrev.type]; decide), if_pos hrev.type]
    refine firstVerdict_of (x := .userId u) ?_ ?_ ?_
    · rw [List.mem_filter]
      refine ⟨?_, by rfl⟩
      rw [List.mem_map]
      refine ⟨publicPkt pu, List.mem_map_of_mem (by rw [← htarget, hps]; simp), ?_⟩
      rw [publicPkt, hub]
      exact hub
    · refine (verifyWith_iff cr hcr (hsk.sized hsz) s _).mpr ⟨i, ?_, hg⟩
      have := input_of_prescribed hsv (by rintro _ _ h; cases h; exact Or.inl rfl) hi
      rwa [libraryInput_user hrev.type] at this
    · intro b hb
      rw [List.mem_filter] at hb
      obtain ⟨-, hb⟩ := hb
      have : ∃ i', signUserInput rawE 0x30 t.key b s = .ok i' := by
        rw [signUserInput, if_neg (not_not.mpr hrev.type)]
        have hcert : ∃ x, certification rawE s.version b = .ok x := by
          rw [certification, hsv]
          cases b with
          | userId u => exact ⟨_, rfl⟩
          | userAttr l => exact ⟨_, rfl⟩
          | _ => simp [Body.tag] at hb <;> omega
        obtain ⟨x, hx⟩ := hcert
        rw [hx, Out.ok_bind, addtrailer_v4 rawE _ s hsv]
        exact ⟨_, rfl⟩
      obtain ⟨i', hi'⟩ := this
      rw [hi']
      exact verifyWith_definite hcr (hsk.sized hsz) hg

/-! ### Applying a certificate -/

theorem revokeWithCert_start {cr : Crypto} {rawE : E → Bytes} {k : KeyObj E} {rev : PgpObj (Pkt E)} {s : Tag2 E} {p : Pkt E} {ps : List (Pkt E)}
    (hsound : k.Sound) (hr : revocationPacket rev = some s) (hv : verifyRevoke cr rawE k rev = .ok .yes) (hp : k.packets = p :: ps) (ht : s.type ≠ 0x30) :
    k.meaningful = .ok true ∧ revokeWithCert cr rawE k rev = (do
      let r ← certRest s ps
      return ⟨.pub, publicPkt p :: (if s.type = 0x20 then [sigPkt s] else []) ++ r⟩) := by
  have hm : k.meaningful = .ok true := by
    have h := hv
    rw [verifyRevoke] at h
    obtain ⟨g, hg, h⟩ := Out.bind_eq_ok.mp h
    cases g with
    | true => exact hg
    | false => exact absurd (Out.ok.inj h) (by decide)
  refine ⟨hm, ?_⟩
  obtain ⟨htag, htail⟩ := tags_tail hm hp
  rw [revokeWithCert, hm, Out.ok_bind]
  simp only [Bool.not_true, Bool.false_eq_true, if_false, hr, hv, Out.ok_bind, hp]
  rw [publicPrimary_eq htag (hsound p (by rw [hp]; simp)), Out.ok_bind]
  simp only [if_neg ht]
  congr 1
  funext r
  split <;> simp

/-- The packets up to the first subkey, the subkey, and the packets behind. -/
theorem certRest_eq {s : Tag2 E} {pre post : List (Pkt E)} {sk : Pkt E} (hpre : ∀ q ∈ pre, ¬ (q.body.tag = 7 ∨ q.body.tag = 14))
    (hsk : sk.body.tag = 7 ∨ sk.body.tag = 14) (hs : ∀ t, sk.body.secretPart = some t → t.Sound) :
    certRest s (pre ++ sk :: post) = (if s.type = 0x28 then (match post with
      | [] => .ub
      | x :: rest => .ok (pre ++ publicPkt sk :: x :: sigPkt s :: rest)) else .ok (pre ++ publicPkt sk :: post)) := by
  have h1 : ∀ q ∈ pre, (!isSubkeyPkt q) = true := by
    intro q hq
    have := hpre q hq
    simp only [isSubkeyPkt, Bool.not_eq_true', Bool.or_eq_false_iff, beq_eq_false_iff_ne]
    omega
  have h2 : ¬ (!isSubkeyPkt sk) = true := by
    simp only [isSubkeyPkt, Bool.not_eq_true', Bool.or_eq_false_iff, beq_eq_false_iff_ne]
    omega
  rw [certRest, List.dropWhile_append_of_pos h1, List.takeWhile_append_of_pos h1, List.dropWhile_cons, if_neg h2, List.takeWhile_cons, if_neg h2]
  dsimp only
  rw [publicLater_eq (by omega) hs, Out.ok_bind, List.append_nil]
  split <;> rfl

/-- Applying a verified key revocation certificate to a public key with subkeys: the revocation is put directly behind the primary key
and nothing else is changed; the result is well-formed, holds nothing secret and is seen as revoked. Missing: secret keys, keys without
subkeys, and the other kinds of certificates. -/
theorem C43_with_cert_partial (cr : Crypto) (rawE : E → Bytes) (k : KeyObj E) (hpub : k.kind = .pub) (rev : PgpObj (Pkt E)) (s : Tag2 E)
    (hr : revocationPacket rev = some s) (ht : s.type = 0x20) (hv : verifyRevoke cr rawE k rev = .ok .yes)
    (hsub : ∃ q ∈ k.packets, q.body.tag = 14) :
    ∃ p ps, k.packets = p :: ps ∧ revokeWithCert cr rawE k rev = .ok ⟨.pub, p :: sigPkt s :: ps⟩ ∧
      (⟨.pub, p :: sigPkt s :: ps⟩ : KeyObj E).meaningful = .ok true ∧ NoSecrets (⟨.pub, p :: sigPkt s :: ps⟩ : KeyObj E) ∧
      (⟨.pub, p :: sigPkt s :: ps⟩ : KeyObj E).revokeCheck = .ok .yes := by
  have hm : k.meaningful = .ok true := by
    have h := hv
    rw [verifyRevoke] at h
    obtain ⟨g, hg, h⟩ := Out.bind_eq_ok.mp h
    cases g with
    | true => exact hg
    | false => exact absurd (Out.ok.inj h) (by decide)
  have hnosec : ∀ q ∈ k.packets, q.body.tag ≠ 5 ∧ q.body.tag ≠ 7 := by
    intro p hp
    rw [KeyObj.meaningful, hpub, C30_meaningful_iff .pub 6 14 rfl] at hm
    obtain ⟨p', revs, users, subkeys, e, h6, hrv, hu, -, hsub, -⟩ := hm
    have hb : p.body ∈ p' :: (revs ++ users.flatten ++ subkeys.flatten) := by rw [← e]; exact List.mem_map_of_mem hp
    have hsig : ∀ {b : Body E}, IsSig b → b.tag ≠ 5 ∧ b.tag ≠ 7 := by
      rintro b ⟨s, rfl⟩
      simp [Body.tag]
    rcases List.mem_cons.mp hb with hb | hb
    · rw [hb, h6]; decide
    rcases List.mem_append.mp hb with hb | hb
    · rcases List.mem_append.mp hb with hb | hb
      · obtain ⟨s, hs, -⟩ := hrv _ hb
        exact hsig ⟨s, hs⟩
      · obtain ⟨g, hg, hbg⟩ := List.mem_flatten.mp hb
        obtain ⟨c, sigs, rfl, ht, hs⟩ := userBlock_split (hu g hg)
        rcases List.mem_cons.mp hbg with hbg | hbg
        · rw [hbg]; omega
        · exact hsig (hs _ hbg)
    · obtain ⟨g, hg, hbg⟩ := List.mem_flatten.mp hb
      obtain ⟨c, sigs, rfl, ht, hs⟩ := subkeyBlock_split (hsub g hg)
      rcases List.mem_cons.mp hbg with hbg | hbg
      · rw [hbg]; omega
      · exact hsig (hs _ hbg)
  have hpubid : ∀ q ∈ k.packets, publicPkt q = q := by
    intro q hq
    have := hnosec q hq
    obtain ⟨f, a, b⟩ := q
    cases b <;> first
      | rfl
      | exact absurd rfl this.1
      | exact absurd rfl this.2
  have hsound : k.Sound := by
    intro q hq t ht
    have := hnosec q hq
    cases hb : q.body <;> rw [hb] at ht this <;> simp [Body.secretPart, Body.tag] at ht this
  obtain ⟨p, ps, hp⟩ := target_packets hm
  obtain ⟨htag, htail⟩ := tags_tail hm hp
  obtain ⟨q, hq, hqt⟩ := hsub
  have hqps : ∃ q ∈ ps, (fun q : Pkt E => decide (q.body.tag = 7 ∨ q.body.tag = 14)) q = true := by
    rw [hp] at hq
    rcases List.mem_cons.mp hq with rfl | hq
    · omega
    · exact ⟨q, hq, by simp [hqt]⟩
  obtain ⟨sk, hfind⟩ := Option.isSome_iff_exists.mp (List.find?_isSome.mpr hqps)
  obtain ⟨hskt, pre, post, hps, hpre⟩ := List.find?_eq_some_iff_append.mp hfind
  obtain ⟨-, he⟩ := revokeWithCert_start hsound hr hv hp (by rw [ht]; decide)
  have hrest : certRest s ps = .ok ps := by
    rw [hps, certRest_eq (fun q hq => by simpa using hpre q hq) (by simpa using hskt) (hsound sk (by rw [hp, hps]; simp)), if_neg (by rw [ht]; decide),
      hpubid sk (by rw [hp, hps]; simp)]
  rw [hrest, Out.ok_bind, if_pos ht, hpubid p (by rw [hp]; simp)] at he
  have hmean : (⟨.pub, p :: sigPkt s :: ps⟩ : KeyObj E).meaningful = .ok true := by
    rw [KeyObj.meaningful, hpub, C30_meaningful_iff .pub 6 14 rfl, hp] at hm
    rw [KeyObj.meaningful, C30_meaningful_iff .pub 6 14 rfl]
    exact transferable_insert_revocation hm ⟨s, rfl, ht⟩
  refine ⟨p, ps, hp, he, hmean, ⟨rfl, ?_⟩, ?_⟩
  · intro q hq
    simp only [List.mem_cons] at hq
    rcases hq with rfl | rfl | hq
    · exact hnosec q (by rw [hp]; simp)
    · simp [sigPkt, Body.tag]
    · exact hnosec q (by rw [hp]; simp [hq])
  · obtain ⟨p', q', r', e1, e2⟩ := revokeCheck_eq _ hmean
    obtain ⟨-, e1⟩ := List.cons.inj e1
    obtain ⟨rfl, -⟩ := List.cons.inj e1
    rw [e2]
    simp only [sigPkt, ht, if_true]

/-- A key without subkeys: the loop over its packets goes beyond the end. -/
theorem C43_with_cert_no_subkey_ub (cr : Crypto) (rawE : E → Bytes) (k : KeyObj E) (hsound : k.Sound) (rev : PgpObj (Pkt E)) (s : Tag2 E)
    (hr : revocationPacket rev = some s) (ht : s.type = 0x20) (hv : verifyRevoke cr rawE k rev = .ok .yes)
    (hsub : ∀ q ∈ k.packets, q.body.tag ≠ 7 ∧ q.body.tag ≠ 14) : revokeWithCert cr rawE k rev = .ub := by
  have hm : k.meaningful = .ok true := by
    have h := hv
    rw [verifyRevoke] at h
    obtain ⟨g, hg, h⟩ := Out.bind_eq_ok.mp h
    cases g with
    | true => exact hg
    | false => exact absurd (Out.ok.inj h) (by decide)
  obtain ⟨p, ps, hp⟩ := target_packets hm
  obtain ⟨-, he⟩ := revokeWithCert_start hsound hr hv hp (by rw [ht]; decide)
  have : ps.dropWhile (fun p => !isSubkeyPkt p) = [] := by
    rw [List.dropWhile_eq_nil_iff]
    intro q hq
    have := hsub q (by rw [hp]; simp [hq])
    simp only [isSubkeyPkt, Bool.not_eq_true', Bool.or_eq_false_iff, beq_eq_false_iff_ne]
    exact this
  rw [he, certRest, this]
  rfl

/-- The packets behind the first subkey are copied as they are: secret subkeys among them stay in the "public" result. -/
theorem C43_with_cert_secrets_fails (cr : Crypto) (rawE : E → Bytes) (k : KeyObj E) (hsound : k.Sound) (rev : PgpObj (Pkt E)) (s : Tag2 E)
    (hr : revocationPacket rev = some s) (ht : s.type ≠ 0x30) (hv : verifyRevoke cr rawE k rev = .ok .yes) (p sk sk2 : Pkt E)
    (pre mid post : List (Pkt E)) (hp : k.packets = p :: (pre ++ sk :: (mid ++ sk2 :: post))) (hpre : ∀ q ∈ pre, ¬ (q.body.tag = 7 ∨ q.body.tag = 14))
    (hsk : sk.body.tag = 7) (_hsk2 : sk2.body.tag = 7) (r : KeyObj E) (h : revokeWithCert cr rawE k rev = .ok r) : r.kind = .pub ∧ sk2 ∈ r.packets := by
  obtain ⟨-, he⟩ := revokeWithCert_start hsound hr hv hp ht
  rw [he, certRest_eq hpre (Or.inl hsk) (hsound sk (by rw [hp]; simp))] at h
  obtain ⟨x, hx, h⟩ := Out.bind_eq_ok.mp h
  obtain rfl := Out.ok.inj h
  refine ⟨rfl, ?_⟩
  rw [List.mem_append]
  right
  split at hx
  · split at hx
    · exact absurd hx (by simp)
    · rename_i y rest hmid
      obtain rfl := Out.ok.inj hx
      have hmem : sk2 ∈ y :: rest := by rw [← hmid]; simp
      rcases List.mem_cons.mp hmem with rfl | hmem <;> simp_all
  · obtain rfl := Out.ok.inj hx
    simp

/-- A subkey revocation is put behind the first subkey, whichever subkey it revokes. -/
theorem C43_with_cert_subkey_fails (cr : Crypto) (rawE : E → Bytes) (k : KeyObj E) (hsound : k.Sound) (rev : PgpObj (Pkt E)) (s : Tag2 E)
    (hr : revocationPacket rev = some s) (ht : s.type = 0x28) (hv : verifyRevoke cr rawE k rev = .ok .yes) (p sk x : Pkt E)
    (pre post : List (Pkt E)) (hp : k.packets = p :: (pre ++ sk :: x :: post)) (hpre : ∀ q ∈ pre, ¬ (q.body.tag = 7 ∨ q.body.tag = 14))
    (hsk : sk.body.tag = 7 ∨ sk.body.tag = 14) :
    revokeWithCert cr rawE k rev = .ok ⟨.pub, publicPkt p :: (pre ++ publicPkt sk :: x :: sigPkt s :: post)⟩ := by
  obtain ⟨-, he⟩ := revokeWithCert_start hsound hr hv hp (by rw [ht]; decide)
  rw [he, certRest_eq hpre hsk (hsound sk (by rw [hp]; simp)), if_pos ht, if_neg (by rw [ht]; decide)]
  simp

/-- A user ID revocation for another user than the first one: the loop never ends. -/
theorem C43_with_cert_user_diverges (cr : Crypto) (rawE : E → Bytes) (k : KeyObj E) (hsound : k.Sound) (rev : PgpObj (Pkt E)) (s : Tag2 E)
    (hr : revocationPacket rev = some s) (ht : s.type = 0x30) (hv : verifyRevoke cr rawE k rev = .ok .yes) (p u : Pkt E) (key : KeyPkt) (digest : Bytes)
    (pre post : List (Pkt E)) (hp : k.packets = p :: (pre ++ u :: post)) (hkey : p.body.keyPart = some key)
    (hpre : ∀ q ∈ pre, ¬ (q.body.tag = 13 ∨ q.body.tag = 17)) (hu : u.body.tag = 13 ∨ u.body.tag = 17)
    (hdig : digestOf cr s (signUserInput rawE 0x30 key u.body s) = .ok digest) (hno : verifyWith digest key s = .ok .no) :
    revokeWithCert cr rawE k rev = .diverge := by
  have hm : k.meaningful = .ok true := by
    have h := hv
    rw [verifyRevoke] at h
    obtain ⟨g, hg, h⟩ := Out.bind_eq_ok.mp h
    cases g with
    | true => exact hg
    | false => exact absurd (Out.ok.inj h) (by decide)
  obtain ⟨htag, htail⟩ := tags_tail hm hp
  have h1 : ∀ q ∈ pre, (!isUserPkt q) = true := by
    intro q hq
    have := hpre q hq
    simp only [isUserPkt, Bool.not_eq_true', Bool.or_eq_false_iff, beq_eq_false_iff_ne]
    omega
  have h2 : ¬ (!isUserPkt u) = true := by
    simp only [isUserPkt, Bool.not_eq_true', Bool.or_eq_false_iff, beq_eq_false_iff_ne]
    omega
  rw [revokeWithCert, hm, Out.ok_bind]
  simp only [Bool.not_true, Bool.false_eq_true, if_false, hr, hv, Out.ok_bind, hp]
  rw [publicPrimary_eq htag (hsound p (by rw [hp]; simp)), Out.ok_bind, if_pos ht, hkey]
  dsimp only
  rw [certUser, List.dropWhile_append_of_pos h1, List.dropWhile_cons, if_neg h2]
  dsimp only
  rw [hdig, Out.ok_bind, hno]
  rfl

/-- A certificate that does not verify for the key changes nothing: the caller gets an empty key, without any packet of the
original and without the certificate. -/
theorem C43_with_cert_unverified (cr : Crypto) (rawE : E → Bytes) (k : KeyObj E) (rev : PgpObj (Pkt E)) (v : Verdict)
    (hv : verifyRevoke cr rawE k rev = .ok v) (hno : v ≠ .yes) : revokeWithCert cr rawE k rev = .ok ⟨.pub, []⟩ := by
  rw [revokeWithCert]
  have h := hv
  rw [verifyRevoke] at h
  obtain ⟨g, hg, h⟩ := Out.bind_eq_ok.mp h
  rw [hg, Out.ok_bind]
  cases g with
  | false => rfl
  | true =>
    simp only [Bool.not_true, Bool.false_eq_true, if_false]
    cases revocationPacket rev with
    | none => rfl
    | some s =>
      dsimp only
      rw [hv, Out.ok_bind]
      cases v with
      | yes => exact absurd rfl hno
      | no => rfl
      | error => rfl

/-! ### Cases that meet the hypotheses -/

/-- As `demoCrypto`, with a hash that looks at all octets. -/
def c43Crypto : Crypto := { demoCrypto with hash := fun a d => List.replicate ((hashLen a).getD 0) (d.foldl (fun x y => 3 * x + y) 0) }

theorem c43Crypto_ok : c43Crypto.Ok := { demoCrypto_ok with hash_len := by intro a n d h; simp [c43Crypto, h] }

/-- A secret subkey. -/
def c43Sub (time : Nat) : Tag5 := { c36Dsa with key := { c36Dsa.key with time := time } }

def c43Users (us : List Bytes) : List (Pkt Empty) := us.flatMap fun u => [⟨.new, false, .userId u⟩, ⟨.new, false, .sig (c30Sig 0x13)⟩]
def c43Subs (ts : List Nat) : List (Pkt Empty) := ts.flatMap fun t => [⟨.new, false, .secretSubkey (c43Sub t)⟩, ⟨.new, false, .sig (c30Sig 0x18)⟩]

/-- A DSA key with user IDs and subkeys. -/
def c43Key (us : List Bytes) (ts : List Nat) : KeyObj Empty := ⟨.sec, ⟨.new, false, .secretKey c36Dsa⟩ :: (c43Users us ++ c43Subs ts)⟩

/-- The key revokes something of itself: reason 1, version 4, SHA-256. -/
def c43Args (us : List Bytes) (ts : List Nat) : RevokeArgs Empty := ⟨c43Key us ts, [], c43Key us ts, 1, [120], 4, 8⟩

theorem c43_parts (us : List Bytes) (ts : List Nat) : ∀ p ∈ (c43Key us ts).packets,
    (p.body = .secretKey c36Dsa ∨ ∃ t ∈ ts, p.body = .secretSubkey (c43Sub t)) ∨ (p.body.secretPart = none ∧ p.body.keyPart = none) := by
  intro p hp
  simp only [c43Key, c43Users, c43Subs, List.mem_cons, List.mem_append, List.mem_flatMap] at hp
  rcases hp with rfl | ⟨u, -, hp⟩ | ⟨t, ht, hp⟩
  · exact Or.inl (Or.inl rfl)
  · simp only [List.not_mem_nil, or_false] at hp
    rcases hp with rfl | rfl <;> exact Or.inr ⟨rfl, rfl⟩
  · simp only [List.not_mem_nil, or_false] at hp
    rcases hp with rfl | rfl
    · exact Or.inl (Or.inr ⟨t, ht, rfl⟩)
    · exact Or.inr ⟨rfl, rfl⟩

theorem c43_sound (us : List Bytes) (ts : List Nat) (h : ∀ t ∈ ts, t < 2 ^ 32) : (c43Key us ts).Sound := by
  intro p hp t ht
  rcases c43_parts us ts p hp with (h' | ⟨x, hx, h'⟩) | h'
  · rw [h'] at ht
    obtain rfl := Option.some.inj ht
    exact ⟨Or.inl ⟨rfl, by decide +kernel, by decide +kernel, by decide +kernel, rfl⟩, by decide +kernel⟩
  · rw [h'] at ht
    obtain rfl := Option.some.inj ht
    have hall : ∀ n ∈ c36Dsa.key.mpi, bitsize n ≤ 65528 := by decide +kernel
    exact ⟨Or.inl ⟨rfl, rfl, h x hx, hall, rfl⟩, fun h => absurd h (by simp [c43Sub, c36Dsa, Tag5.hasS2K])⟩
  · rw [h'.1] at ht
    cases ht

theorem c43_canSign (us : List Bytes) (ts : List Nat) (h : ∀ t ∈ ts, t < 2 ^ 32) (hm : (c43Key us ts).meaningful = .ok true) :
    CanSign c43Crypto (c43Args us ts).sign [] c36Dsa [6] where
  sec := rfl
  meaningful := hm
  sound := c43_sound us ts h
  sized := by
    intro p hp kp hk n hn
    have hall : ∀ n ∈ c37Pub.mpi, n.log2 < 2 ^ 32 := by decide +kernel
    rcases c43_parts us ts p hp with (h' | ⟨x, hx, h'⟩) | h'
    · rw [h'] at hk
      obtain rfl := Option.some.inj hk
      exact hall n hn
    · rw [h'] at hk
      obtain rfl := Option.some.inj hk
      exact hall n hn
    · rw [h'.2] at hk
      cases hk
  packets := ⟨_, _, rfl, rfl⟩
  first := by simp
  opens := show c36Dsa.decryptSecretKeys c43Crypto [] = .ok [6] by decide +kernel
  pair := Or.inr ⟨rfl, 23, 11, 4, 2, 6, by norm_num, by decide, by norm_num, by decide, rfl, rfl, by decide⟩

theorem ok_of_check {α : Type} {o : Out α} {P : α → Bool} (h : (match o with | .ok r => P r | _ => false) = true) : ∃ r, o = .ok r ∧ P r = true := by
  cases o with
  | ok r => exact ⟨r, rfl, h⟩
  | _ => cases h

/-- The tags of the packets. -/
def tagsOf (k : KeyObj Empty) : List Nat := k.packets.map fun p => p.body.tag

def noE : Empty → Bytes := fun e => nomatch e

/-- `C43_key`, `C43_subkey`, `C43_uid_partial`: a key with two user IDs and two subkeys, and one with one user ID. -/
example : (c43Key [[97], [98]] [1, 2]).meaningful = .ok true ∧ (c43Key [[97]] [1, 2]).meaningful = .ok true := by decide +kernel
example : ∃ r, revokeKey c43Crypto noE (c43Args [[97], [98]] [1, 2]) 7 [3] = .ok r ∧ decide (tagsOf r = [6, 2, 13, 2, 13, 2, 14, 2, 14, 2]) = true :=
  ok_of_check (P := fun r => decide (tagsOf r = [6, 2, 13, 2, 13, 2, 14, 2, 14, 2])) (by decide +kernel)
example : ∃ r, revokeSubkey c43Crypto noE (c43Args [[97], [98]] [1, 2]) 7 [3] [22] = .ok r ∧
    decide (tagsOf r = [6, 13, 2, 13, 2, 14, 2, 14, 2, 2]) = true :=
  ok_of_check (P := fun r => decide (tagsOf r = [6, 13, 2, 13, 2, 14, 2, 14, 2, 2])) (by decide +kernel)
example : ∃ r, revokeUid c43Crypto noE (c43Args [[97]] [1, 2]) 7 [3] [97] = .ok r ∧ decide (tagsOf r = [6, 13, 2, 2, 14, 2, 14, 2]) = true :=
  ok_of_check (P := fun r => decide (tagsOf r = [6, 13, 2, 2, 14, 2, 14, 2])) (by decide +kernel)
/-- The subkey ID names one subkey. -/
example : (c43Sub 1).key.keyid c43Crypto = .ok (List.replicate 8 67) ∧ (c43Sub 2).key.keyid c43Crypto = .ok (List.replicate 8 22) ∧
    containsBytes [22] (List.replicate 8 67) = false ∧ containsBytes [22] (List.replicate 8 22) = true := by decide +kernel

/-- `C43_uid_others_fails`: the other user ID is gone, and the result is not a well-formed key (its certification stands behind the
primary key). -/
example : ∃ r, revokeUid c43Crypto noE (c43Args [[97], [98]] [1, 2]) 7 [3] [98] = .ok r ∧
    decide (tagsOf r = [6, 2, 13, 2, 2, 14, 2, 14, 2] ∧ r.meaningful = .ok false) = true :=
  ok_of_check (P := fun r => decide (tagsOf r = [6, 2, 13, 2, 2, 14, 2, 14, 2] ∧ r.meaningful = .ok false)) (by decide +kernel)

/-- Certificates: of the key, of a subkey and of a user ID. -/
example : ∃ c, revokeKeyCert c43Crypto noE (c43Args [[97], [98]] [1, 2]) 7 [3] = .ok c ∧ decide (c.packets.length = 1) = true :=
  ok_of_check (P := fun c : PgpObj (Pkt Empty) => decide (c.packets.length = 1)) (by decide +kernel)
example : ∃ c, revokeSubkeyCert c43Crypto noE (c43Args [[97], [98]] [1, 2]) 7 [3] [22] = .ok c ∧ decide (c.packets.length = 1) = true :=
  ok_of_check (P := fun c : PgpObj (Pkt Empty) => decide (c.packets.length = 1)) (by decide +kernel)
example : ∃ c, revokeUidCert c43Crypto noE (c43Args [[97], [98]] [1, 2]) 7 [3] [98] = .ok c ∧ decide (c.packets.length = 1) = true :=
  ok_of_check (P := fun c : PgpObj (Pkt Empty) => decide (c.packets.length = 1)) (by decide +kernel)

/-- Applying them: `C43_with_cert_partial` (public key), `C43_with_cert_secrets_fails` (secret key with two subkeys),
`C43_with_cert_no_subkey_ub`, `C43_with_cert_user_diverges`. -/
example : ∃ r, (do revokeWithCert c43Crypto noE (← (c43Key [[97], [98]] [1, 2]).getPublic) (← revokeKeyCert c43Crypto noE (c43Args [[97], [98]] [1, 2]) 7 [3])) =
    Out.ok r ∧ decide (tagsOf r = [6, 2, 13, 2, 13, 2, 14, 2, 14, 2]) = true :=
  ok_of_check (P := fun r => decide (tagsOf r = [6, 2, 13, 2, 13, 2, 14, 2, 14, 2])) (by decide +kernel)
example : ∃ r, (do revokeWithCert c43Crypto noE (c43Key [[97], [98]] [1, 2]) (← revokeKeyCert c43Crypto noE (c43Args [[97], [98]] [1, 2]) 7 [3])) =
    Out.ok r ∧ decide (tagsOf r = [6, 2, 13, 2, 13, 2, 14, 2, 7, 2]) = true :=
  ok_of_check (P := fun r => decide (tagsOf r = [6, 2, 13, 2, 13, 2, 14, 2, 7, 2])) (by decide +kernel)
example : (match (do revokeWithCert c43Crypto noE (c43Key [[97]] []) (← revokeKeyCert c43Crypto noE (c43Args [[97]] []) 7 [3])) with
    | .ub => true | _ => false) = true := by decide +kernel
example : (match (do revokeWithCert c43Crypto noE (c43Key [[97], [98]] [1]) (← revokeUidCert c43Crypto noE (c43Args [[97], [98]] [1]) 7 [3] [98])) with
    | .diverge => true | _ => false) = true := by decide +kernel

/-- `C43_with_cert_unverified`: the certificate of a user ID that the key does not have. -/
example : ∃ v, (do verifyRevoke c43Crypto noE (c43Key [[97]] [1]) (← revokeUidCert c43Crypto noE (c43Args [[97], [98]] [1]) 7 [3] [98])) = .ok v ∧
    decide (v ≠ .yes) = true :=
  ok_of_check (P := fun v : Verdict => decide (v ≠ .yes)) (by decide +kernel)

end OpenPGP
