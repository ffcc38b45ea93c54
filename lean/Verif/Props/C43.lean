import Verif.Model.Revoke
import Verif.Props.C36Limits

/-!
# C43: revocation
-/
namespace OpenPGP
open Rfc
variable {E : Type}

/-- The arguments of signing with the signer of a revocation. -/
def RevokeArgs.sign (a : RevokeArgs E) : SignArgs E := ⟨a.signer, a.pass, a.version, a.hash⟩

theorem signerPacket_of {cr : Crypto} {a : SignArgs E} {before : List (Pkt E)} {t : Tag5} {pri : List Nat} (h : CanSign cr a before t pri) :
    ∃ p after, a.pri.packets = before ++ p :: after ∧ p.body.secretPart = some t ∧ signerPacket a.pri = .ok (some (p.body, t)) := by
  obtain ⟨p, after, hp, ht⟩ := h.packets
  refine ⟨p, after, hp, ht, ?_⟩
  have hf : a.pri.packets.find? (fun p => match p.body.keyPart with | some kp => OpenPGP.canSign kp.pka | none => false) = some p := by
    rw [List.find?_eq_some_iff_append]
    refine ⟨?_, before, after, hp, ?_⟩
    · rw [keyPart_of_secretPart ht]
      exact (canSign_iff _).mpr h.pair.canSign
    · intro q hq
      cases hk : q.body.keyPart with
      | none => rfl
      | some k =>
        have := h.first q hq k hk
        rw [← canSign_iff] at this
        simpa using this
  rw [signerPacket, KeyObj.findSigningKey, h.meaningful, Out.ok_bind]
  simp only [Bool.not_true, Bool.false_eq_true, if_false, Out.pure_eq, Out.ok_bind]
  generalize hg : List.find? _ a.pri.packets = o
  obtain rfl : o = some p := hg.symm.trans hf
  simp only [ht]

/-- The signing key is the primary key. -/
theorem signerPacket_primary {cr : Crypto} {a : SignArgs E} {t : Tag5} {pri : List Nat} (h : CanSign cr a [] t pri) :
    signerPacket a.pri = .ok (some (.secretKey t, t)) := by
  obtain ⟨p, after, hp, ht, hs⟩ := signerPacket_of h
  have hm := h.meaningful
  rw [KeyObj.meaningful, h.sec, C30_meaningful_iff .sec 5 7 rfl, hp] at hm
  obtain ⟨p', _, _, _, e, h5, -⟩ := hm
  have e1 : p.body = p' := (List.cons.inj e).1
  rw [← e1] at h5
  cases hb : p.body with
  | secretKey t' => rw [hb] at ht hs; obtain rfl := Option.some.inj ht; exact hs
  | secretSubkey t' => rw [hb] at h5; exact absurd h5 (by simp [Body.tag])
  | _ => rw [hb] at ht; exact absurd ht (by simp [Body.secretPart])

/-! ### The packets -/

theorem tags_tail {k : KeyObj E} (h : k.meaningful = .ok true) {p : Pkt E} {ps : List (Pkt E)} (hp : k.packets = p :: ps) :
    (p.body.tag = 5 ∨ p.body.tag = 6) ∧ ∀ q ∈ ps, q.body.tag ≠ 5 ∧ q.body.tag ≠ 6 := by
  obtain ⟨key, subkey, ht⟩ := tags_of_meaningful h
  have hc := tags_cases ht
  have hsub : subkey ≠ 5 ∧ subkey ≠ 6 := by
    cases hk : k.kind with
    | pub => rw [hk] at ht; obtain ⟨-, rfl⟩ := Prod.mk.inj (Option.some.inj ht); decide
    | sec => rw [hk] at ht; obtain ⟨-, rfl⟩ := Prod.mk.inj (Option.some.inj ht); decide
    | other => rw [hk] at ht; cases ht
  rw [KeyObj.meaningful, C30_meaningful_iff k.kind key subkey ht, hp] at h
  refine ⟨?_, fun q hq => transferable_tail_tags hsub h _ (List.mem_map_of_mem hq)⟩
  obtain ⟨p', _, _, _, e, h5, -⟩ := h
  have e1 : p.body = p' := (List.cons.inj e).1
  rw [e1, h5]
  exact hc.1

theorem publicPrimary_eq {p : Pkt E} (ht : p.body.tag = 5 ∨ p.body.tag = 6) (hs : ∀ t, p.body.secretPart = some t → t.Sound) :
    publicPrimary p = .ok [publicPkt p] := by
  obtain ⟨f, a, b⟩ := p
  cases b <;> first
    | rfl
    | (simp only [Body.tag] at ht; omega)
    | (rw [publicPrimary]; simp only [Tag5.getPublic_eq (hs _ rfl), publicPkt]; rfl)

theorem publicLater_eq {p : Pkt E} (ht : p.body.tag ≠ 5) (hs : ∀ t, p.body.secretPart = some t → t.Sound) :
    publicLater p = .ok (publicPkt p) := by
  obtain ⟨f, a, b⟩ := p
  cases b <;> first
    | rfl
    | (exact absurd rfl ht)
    | (rw [publicLater]; simp only [Tag5.getPublic_eq (hs _ rfl), publicPkt]; rfl)

theorem publicLaters_eq : ∀ (l : List (Pkt E)), (∀ p ∈ l, p.body.tag ≠ 5) → (∀ p ∈ l, ∀ t, p.body.secretPart = some t → t.Sound) →
    publicLaters l = .ok (l.map publicPkt)
  | [], _, _ => rfl
  | p :: l, ht, hs => by
    rw [publicLaters, publicLater_eq (ht p (by simp)) (hs p (by simp)), Out.ok_bind,
      publicLaters_eq l (fun q hq => ht q (by simp [hq])) (fun q hq => hs q (by simp [hq]))]
    rfl

theorem publicPkt_tag (p : Pkt E) : (publicPkt p).body.tag ≠ 5 ∧ (publicPkt p).body.tag ≠ 7 := by
  obtain ⟨f, a, b⟩ := p
  cases b <;> simp only [publicPkt, Body.tag] <;> omega

/-- The public form of a well-formed key, of either kind, is a well-formed public key. -/
theorem meaningful_public {k : KeyObj E} (hs : k.Sound) (hm : k.meaningful = .ok true) :
    (⟨.pub, k.packets.map publicPkt⟩ : KeyObj E).meaningful = .ok true := by
  cases hk : k.kind with
  | sec =>
    obtain ⟨pub, h1, h2⟩ := C31_meaningful k hs hk hm
    rw [getPublic_eq k hs] at h1
    obtain rfl := Out.ok.inj h1
    exact h2
  | other =>
    obtain ⟨key, subkey, ht⟩ := tags_of_meaningful hm
    rw [hk] at ht
    cases ht
  | pub =>
    have hall : ∀ p ∈ k.packets, publicPkt p = p := by
      intro p hp
      have : p.body.tag ≠ 5 ∧ p.body.tag ≠ 7 := by
        rw [KeyObj.meaningful, hk, C30_meaningful_iff .pub 6 14 rfl] at hm
        obtain ⟨p', revs, users, subkeys, e, h6, hr, hu, -, hsub, -⟩ := hm
        have hb : p.body ∈ p' :: (revs ++ users.flatten ++ subkeys.flatten) := by rw [← e]; exact List.mem_map_of_mem hp
        have hsig : ∀ {b : Body E}, IsSig b → b.tag ≠ 5 ∧ b.tag ≠ 7 := by
          rintro b ⟨s, rfl⟩
          simp [Body.tag]
        rcases List.mem_cons.mp hb with hb | hb
        · rw [hb, h6]; decide
        rcases List.mem_append.mp hb with hb | hb
        · rcases List.mem_append.mp hb with hb | hb
          · obtain ⟨s, hs, -⟩ := hr _ hb
            exact hsig ⟨s, hs⟩
          · obtain ⟨g, hg, hbg⟩ := List.mem_flatten.mp hb
            obtain ⟨c, sigs, rfl, ht, hs⟩ := userBlock_split (hu g hg)
            rcases List.mem_cons.mp hbg with hbg | hbg
            · rw [hbg]; omega
            · exact hsig (hs _ hbg)
        · obtain ⟨g, hg, hbg⟩ := List.mem_flatten.mp hb
          obtain ⟨c, sigs, rfl, ht, hs⟩ := subkeyBlock_split (hsub g hg)
          rcases List.mem_cons.mp hbg with hbg | hbg
          · rw [hbg]; omega
          · exact hsig (hs _ hbg)
      obtain ⟨f, a, b⟩ := p
      cases b <;> first
        | rfl
        | exact absurd rfl this.1
        | exact absurd rfl this.2
    have : k.packets.map publicPkt = k.packets := by
      conv_rhs => rw [← List.map_id k.packets]
      exact List.map_congr_left hall
    rw [this]
    obtain ⟨kind, ps⟩ := k
    dsimp only at hk
    rw [← hk]
    exact hm

/-! ### The signatures -/

/-- What a completed revocation signature says: it is over `c`, and its values are right for the signer `t`. -/
structure Revocation (cr : Crypto) (rawE : E → Bytes) (t : Tag5) (type : UInt8) (c : Signed E) (s : Tag2 E) : Prop where
  type : s.type = type
  issuer : ∃ kid, t.key.keyid cr = .ok kid ∧ s.unhashed = [⟨false, .issuer kid⟩]
  good : ∃ i, Prescribed rawE c s i ∧ GoodValues cr t.key s i ∧ s.left16 = (cr.hash s.hash i).take 2

theorem revokeSig_ok {cr : Crypto} (hcr : cr.Ok) {a : SignArgs E} {before : List (Pkt E)} {t : Tag5} {pri draws : List Nat} (h : CanSign cr a before t pri)
    {rawE : E → Bytes} {target : Body E} {sig : Tag2 E} (hpka : sig.pka = t.key.pka) (hv : sig.version = 3 ∨ sig.version = 4)
    (ht : sig.type = 0x20 ∨ sig.type = 0x28) {kid : Bytes} (hkid : t.key.keyid cr = .ok kid) (hu : sig.unhashed = [⟨false, .issuer kid⟩])
    {r : Option (Tag2 E)} (hr : revokeSig cr rawE draws t a.pass target sig = .ok r) :
    ∃ s key, r = some s ∧ s.hashed = sig.hashed ∧ s.version = sig.version ∧ target.keyPart = some key ∧ Revocation cr rawE t sig.type (.key key) s := by
  rw [revokeSig, if_neg (by rcases ht with h | h <;> rw [h] <;> decide)] at hr
  rcases ht with h20 | h28
  · rw [if_pos h20] at hr
    obtain ⟨i, vals, n, hi, hn, rfl, hsh⟩ := makeSig_ok hcr h hpka (input := sign20Input rawE target) hr
    have hkey : ∃ key, target.keyPart = some key ∧ addtrailer rawE (overkey key) sig = .ok i := by
      cases target with
      | publicKey k => rw [sign20Input, if_neg (by simp [h20])] at hi; exact ⟨k, rfl, hi⟩
      | secretKey k => rw [sign20Input, if_neg (by simp [h20])] at hi; exact ⟨k.key, rfl, hi⟩
      | _ => exact absurd hi (by simp [sign20Input])
    obtain ⟨key, hk, hi⟩ := hkey
    refine ⟨_, key, rfl, rfl, rfl, hk, rfl, ⟨kid, hkid, hu⟩, i, ?_, ⟨⟨n, hn⟩, hsh⟩, rfl⟩
    refine prescribed_of_input rawE (.key key) _ (Or.inr (Or.inl h20)) (by rw [show _ = _ from h20]; decide) (by simp) i ?_ hv
    rw [libraryInput, if_pos (show _ = _ from h20), sign20Input, if_neg (not_not.mpr (show _ = _ from h20))]
    exact hi
  · rw [if_neg (by rw [h28]; decide)] at hr
    obtain ⟨i, vals, n, hi, hn, rfl, hsh⟩ := makeSig_ok hcr h hpka (input := sign28Input rawE target) hr
    have hkey : ∃ key, target.keyPart = some key ∧ addtrailer rawE (overkey key) sig = .ok i := by
      cases target with
      | publicSubkey k => rw [sign28Input, if_neg (by simp [h28])] at hi; exact ⟨k, rfl, hi⟩
      | secretSubkey k => rw [sign28Input, if_neg (by simp [h28])] at hi; exact ⟨k.key, rfl, hi⟩
      | _ => exact absurd hi (by simp [sign28Input])
    obtain ⟨key, hk, hi⟩ := hkey
    refine ⟨_, key, rfl, rfl, rfl, hk, rfl, ⟨kid, hkid, hu⟩, i, ?_, ⟨⟨n, hn⟩, hsh⟩, rfl⟩
    refine prescribed_of_input rawE (.key key) _ (Or.inr (Or.inr h28)) (by rw [show _ = _ from h28]; decide) (by simp) i ?_ hv
    rw [libraryInput, if_neg (by rw [show _ = _ from h28]; decide), if_pos (show _ = _ from h28), sign28Input, if_neg (not_not.mpr (show _ = _ from h28))]
    exact hi

theorem RevokeArgs.valid_true {a : RevokeArgs E} (h : a.valid = .ok true) :
    a.signer.kind = .sec ∧ a.signer.meaningful = .ok true ∧ a.target.meaningful = .ok true ∧ (a.version = 3 ∨ a.version = 4) := by
  rw [RevokeArgs.valid] at h
  split at h
  · exact absurd (Out.ok.inj h) (by decide)
  rename_i hk
  obtain ⟨g, hg, h1⟩ := Out.bind_eq_ok.mp h
  cases g with
  | false => exact absurd (Out.ok.inj h1) (by decide)
  | true =>
    simp only [Bool.not_true, Bool.false_eq_true, if_false] at h1
    obtain ⟨g', hg', h2⟩ := Out.bind_eq_ok.mp h1
    cases g' with
    | false => exact absurd (Out.ok.inj h2) (by decide)
    | true =>
      simp only [Bool.not_true, Bool.false_eq_true, if_false] at h2
      split at h2
      · exact absurd (Out.ok.inj h2) (by decide)
      split at h2
      · exact absurd (Out.ok.inj h2) (by decide)
      rename_i hv
      exact ⟨not_not.mp hk, hg, hg', by by_cases h3 : a.version = 3 <;> by_cases h4 : a.version = 4 <;> simp_all⟩

/-- The hashed fields of a revocation with a reason: time, reason. -/
def reasonFields (a : RevokeArgs E) (now : Nat) : List (Sub E) := [⟨false, .sigTime now⟩, ⟨false, .reason a.code a.reason⟩]

theorem revokeKeySig_ok {cr : Crypto} (hcr : cr.Ok) {rawE : E → Bytes} {a : RevokeArgs E} {t : Tag5} {pri : List Nat} (h : CanSign cr a.sign [] t pri)
    {now : Nat} {draws : List Nat} {s : Tag2 E} (hs : revokeKeySig cr rawE a now draws = .ok (some s)) :
    a.valid = .ok true ∧ s.hashed = reasonFields a now ∧ s.version = a.version ∧ Revocation cr rawE t 0x20 (.key t.key) s := by
  rw [revokeKeySig] at hs
  obtain ⟨v, hv, hs⟩ := Out.bind_eq_ok.mp hs
  cases v with
  | false => exact absurd (Out.ok.inj hs) (by simp)
  | true =>
    simp only [Bool.not_true, Bool.false_eq_true, if_false] at hs
    rw [show a.signer = a.sign.pri from rfl, signerPacket_primary h, Out.ok_bind] at hs
    dsimp only at hs
    obtain ⟨kid, hkid, hs⟩ := Out.bind_eq_ok.mp hs
    obtain ⟨s', key, h1, h2, h2', h3, h4⟩ := revokeSig_ok hcr h (target := .secretKey t) rfl (RevokeArgs.valid_true hv).2.2.2 (Or.inl rfl) hkid rfl hs
    obtain rfl := Option.some.inj h1
    obtain rfl := Option.some.inj h3
    exact ⟨hv, h2, h2', h4⟩

/-- The public form of a key with a packet added. -/
def NoSecrets (k : KeyObj E) : Prop := k.kind = .pub ∧ ∀ p ∈ k.packets, p.body.tag ≠ 5 ∧ p.body.tag ≠ 7

theorem noSecrets_of {ps : List (Pkt E)} (h : ∀ p ∈ ps, (∃ q, p = publicPkt q) ∨ ∃ s, p = sigPkt s) : NoSecrets (⟨.pub, ps⟩ : KeyObj E) := by
  refine ⟨rfl, fun p hp => ?_⟩
  rcases h p hp with ⟨q, rfl⟩ | ⟨s, rfl⟩
  · exact publicPkt_tag q
  · simp [sigPkt, Body.tag]

/-- The packets of the key, behind the primary one. -/
theorem target_packets {k : KeyObj E} (hm : k.meaningful = .ok true) : ∃ p ps, k.packets = p :: ps := by
  cases hp : k.packets with
  | cons p ps => exact ⟨p, ps, rfl⟩
  | nil =>
    obtain ⟨key, subkey, ht⟩ := tags_of_meaningful hm
    rw [KeyObj.meaningful, C30_meaningful_iff k.kind key subkey ht, hp] at hm
    obtain ⟨_, _, _, _, e, -⟩ := hm
    exact absurd e (by simp)

/-- Revoking a key: the result is the public form of the target with the revocation directly behind the primary key packet; the revocation
is a good signature over the signer's primary key with the given reason; the result is well-formed, holds nothing secret and is
seen as revoked. -/
theorem C43_key (cr : Crypto) (hcr : cr.Ok) (rawE : E → Bytes) (a : RevokeArgs E) (t : Tag5) (pri : List Nat) (h : CanSign cr a.sign [] t pri)
    (hsound : a.target.Sound) (now : Nat) (draws : List Nat) (r : KeyObj E) (hr : revokeKey cr rawE a now draws = .ok r) (hne : r.packets ≠ []) :
    ∃ p ps s, a.target.packets = p :: ps ∧ r = ⟨.pub, publicPkt p :: sigPkt s :: ps.map publicPkt⟩ ∧ s.hashed = reasonFields a now ∧
      Revocation cr rawE t 0x20 (.key t.key) s ∧ r.meaningful = .ok true ∧ NoSecrets r ∧ r.revokeCheck = .ok .yes := by
  have nope : ∀ {x : KeyObj E}, (pure noPublicKey : Out (KeyObj E)) = .ok x → x.packets = [] := by
    intro x hx
    cases Out.ok.inj hx
    rfl
  rw [revokeKey] at hr
  obtain ⟨v, hv, hr1⟩ := Out.bind_eq_ok.mp hr
  split at hr1
  · exact absurd (nope hr1) hne
  obtain ⟨os, hos, hr2⟩ := Out.bind_eq_ok.mp hr1
  cases os with
  | none => exact absurd (nope hr2) hne
  | some s =>
    obtain ⟨hvalid, hhash, -, hrev⟩ := revokeKeySig_ok hcr h hos
    obtain ⟨-, -, htm, -⟩ := RevokeArgs.valid_true hvalid
    obtain ⟨p, ps, hp⟩ := target_packets htm
    obtain ⟨htag, htail⟩ := tags_tail htm hp
    dsimp only at hr2
    rw [hp] at hr2
    dsimp only at hr2
    rw [publicPrimary_eq htag (hsound p (by rw [hp]; simp)), Out.ok_bind,
      publicLaters_eq ps (fun q hq => (htail q hq).1) (fun q hq => hsound q (by rw [hp]; simp [hq])), Out.ok_bind] at hr2
    obtain rfl := Out.ok.inj hr2
    have hmean : (⟨.pub, publicPkt p :: sigPkt s :: ps.map publicPkt⟩ : KeyObj E).meaningful = .ok true := by
      have := meaningful_public hsound htm
      rw [KeyObj.meaningful, C30_meaningful_iff .pub 6 14 rfl, hp] at this
      rw [KeyObj.meaningful, C30_meaningful_iff .pub 6 14 rfl]
      exact transferable_insert_revocation this ⟨s, rfl, hrev.type⟩
    refine ⟨p, ps, s, hp, rfl, hhash, hrev, hmean, ?_, ?_⟩
    · refine noSecrets_of fun q hq => ?_
      simp only [List.singleton_append, List.mem_cons, List.mem_map] at hq
      rcases hq with rfl | rfl | ⟨x, -, rfl⟩
      · exact Or.inl ⟨_, rfl⟩
      · exact Or.inr ⟨_, rfl⟩
      · exact Or.inl ⟨_, rfl⟩
    · obtain ⟨p', q', r', e1, e2⟩ := revokeCheck_eq _ hmean
      obtain ⟨-, e1⟩ := List.cons.inj e1
      obtain ⟨rfl, -⟩ := List.cons.inj e1
      rw [show ([publicPkt p] ++ sigPkt s :: ps.map publicPkt) = publicPkt p :: sigPkt s :: ps.map publicPkt from rfl, e2]
      simp only [sigPkt, hrev.type, if_true]

/-! ### Subkeys -/

theorem findSecretSubkey_ok {cr : Crypto} {id : Bytes} : ∀ {ps : List (Pkt E)} {b : Body E}, findSecretSubkey cr id ps = .ok (some b) →
    ∃ pre p post t kid, ps = pre ++ p :: post ∧ p.body = b ∧ b = .secretSubkey t ∧ t.key.keyid cr = .ok kid ∧ containsBytes id kid = true ∧
      ∀ q ∈ pre, ∀ t', q.body = .secretSubkey t' → ∃ k, t'.key.keyid cr = .ok k ∧ containsBytes id k = false
  | [], b, h => by rw [findSecretSubkey] at h; exact absurd (Out.ok.inj h) (by simp)
  | p :: ps, b, h => by
    rw [findSecretSubkey] at h
    split at h
    · rename_i t ht
      obtain ⟨c, hc, h1⟩ := Out.bind_eq_ok.mp h
      obtain ⟨kid, hkid, hc⟩ := Out.bind_eq_ok.mp hc
      obtain rfl := Out.ok.inj hc
      split at h1
      · rename_i hcon
        obtain rfl := Option.some.inj (Out.ok.inj h1)
        exact ⟨[], p, ps, t, kid, rfl, rfl, ht, hkid, hcon, by simp⟩
      · rename_i hcon
        obtain ⟨pre, q, post, t', kid', rfl, h2, h3, h4, h5, h6⟩ := findSecretSubkey_ok h1
        refine ⟨p :: pre, q, post, t', kid', rfl, h2, h3, h4, h5, ?_⟩
        intro x hx t'' ht''
        rcases List.mem_cons.mp hx with rfl | hx
        · rw [ht] at ht''
          obtain rfl := Body.secretSubkey.inj ht''
          exact ⟨kid, hkid, by simpa using hcon⟩
        · exact h6 x hx t'' ht''
    · rename_i hno
      obtain ⟨pre, q, post, t', kid', rfl, h2, h3, h4, h5, h6⟩ := findSecretSubkey_ok h
      refine ⟨p :: pre, q, post, t', kid', rfl, h2, h3, h4, h5, ?_⟩
      intro x hx t'' ht''
      rcases List.mem_cons.mp hx with rfl | hx
      · exact absurd ht'' (hno t'')
      · exact h6 x hx t'' ht''

theorem revokeSubkeySig_ok {cr : Crypto} (hcr : cr.Ok) {rawE : E → Bytes} {a : RevokeArgs E} {before : List (Pkt E)} {t : Tag5} {pri : List Nat}
    (h : CanSign cr a.sign before t pri) {now : Nat} {draws : List Nat} {id : Bytes} {s : Tag2 E}
    (hs : revokeSubkeySig cr rawE a now draws id = .ok (some s)) :
    a.valid = .ok true ∧ s.version = a.version ∧ ∃ pre p post sub kid, a.target.packets = pre ++ p :: post ∧ p.body = .secretSubkey sub ∧
      sub.key.keyid cr = .ok kid ∧ containsBytes id kid = true ∧
      (∀ q ∈ pre, ∀ t', q.body = .secretSubkey t' → ∃ k, t'.key.keyid cr = .ok k ∧ containsBytes id k = false) ∧
      Revocation cr rawE t 0x28 (.key sub.key) s := by
  rw [revokeSubkeySig] at hs
  obtain ⟨v, hv, hs1⟩ := Out.bind_eq_ok.mp hs
  cases v with
  | false => exact absurd (Out.ok.inj hs1) (by simp)
  | true =>
    simp only [Bool.not_true, Bool.false_eq_true, if_false] at hs1
    obtain ⟨p0, _, -, -, hsp⟩ := signerPacket_of h
    rw [show a.signer = a.sign.pri from rfl, hsp, Out.ok_bind] at hs1
    dsimp only at hs1
    obtain ⟨ob, hob, hs2⟩ := Out.bind_eq_ok.mp hs1
    cases ob with
    | none => exact absurd (Out.ok.inj hs2) (by simp)
    | some b =>
      obtain ⟨pre, p, post, sub, kid', hps, hpb, rfl, hk, hcon, hpre⟩ := findSecretSubkey_ok hob
      dsimp only at hs2
      obtain ⟨kid, hkid, hs3⟩ := Out.bind_eq_ok.mp hs2
      obtain ⟨s', key, h1, -, h2', h3, h4⟩ := revokeSig_ok hcr h (target := .secretSubkey sub) rfl (RevokeArgs.valid_true hv).2.2.2 (Or.inr rfl) hkid rfl hs3
      obtain rfl := Option.some.inj h1
      obtain rfl := Option.some.inj h3
      exact ⟨hv, h2', pre, p, post, sub, kid', hps, hpb, hk, hcon, hpre, h4⟩

/-- The subkey packets of `ps` whose key ID contains `id`. -/
def matchesId (cr : Crypto) (id : Bytes) (p : Pkt E) : Prop :=
  (p.body.tag = 7 ∨ p.body.tag = 14) ∧ ∃ k kid, p.body.keyPart = some k ∧ k.keyid cr = .ok kid ∧ containsBytes id kid = true

theorem subkeyInsert_none {cr : Crypto} {id : Bytes} {s : Tag2 E} : ∀ {ps r : List (Pkt E)}, (∀ p ∈ ps, ¬ matchesId cr id p) →
    (∀ p ∈ ps, p.body.tag ≠ 5) → (∀ p ∈ ps, ∀ t, p.body.secretPart = some t → t.Sound) → subkeyInsert cr id s ps = .ok r → r = ps.map publicPkt
  | [], r, _, _, _, h => (Out.ok.inj h).symm
  | p :: ps, r, hm, ht, hsd, h => by
    have ih := fun {r'} h' => subkeyInsert_none (cr := cr) (id := id) (s := s) (ps := ps) (r := r') (fun q hq => hm q (by simp [hq]))
      (fun q hq => ht q (by simp [hq])) (fun q hq => hsd q (by simp [hq])) h'
    have hmp := hm p (by simp)
    unfold subkeyInsert at h
    split at h
    · rename_i t hb
      rw [Tag5.getPublic_eq (hsd p (by simp) t (by rw [hb]; rfl)), Out.ok_bind] at h
      dsimp only at h
      obtain ⟨c, hc, h1⟩ := Out.bind_eq_ok.mp h
      obtain ⟨kid, hkid, hc⟩ := Out.bind_eq_ok.mp hc
      obtain rfl := Out.ok.inj hc
      rw [if_neg (fun hcon => hmp ⟨Or.inl (by rw [hb]; rfl), t.key, kid, by rw [hb]; rfl, hkid, hcon⟩)] at h1
      obtain ⟨r', hr', h1⟩ := Out.bind_eq_ok.mp h1
      obtain rfl := Out.ok.inj h1
      rw [ih hr', List.map_cons, publicPkt, hb]
    · rename_i k hb
      obtain ⟨c, hc, h1⟩ := Out.bind_eq_ok.mp h
      obtain ⟨kid, hkid, hc⟩ := Out.bind_eq_ok.mp hc
      obtain rfl := Out.ok.inj hc
      rw [if_neg (fun hcon => hmp ⟨Or.inr (by rw [hb]; rfl), k, kid, by rw [hb]; rfl, hkid, hcon⟩)] at h1
      obtain ⟨r', hr', h1⟩ := Out.bind_eq_ok.mp h1
      obtain rfl := Out.ok.inj h1
      rw [ih hr', List.map_cons, publicPkt, hb]
    · rename_i h1 h2
      obtain ⟨r', hr', h'⟩ := Out.bind_eq_ok.mp h
      obtain rfl := Out.ok.inj h'
      rw [ih hr', List.map_cons]
      congr 1
      obtain ⟨f, x, b⟩ := p
      cases b <;> first
        | rfl
        | exact absurd rfl (h1 _)
        | exact (ht _ List.mem_cons_self rfl).elim

theorem subkeyInsert_one {cr : Crypto} {id : Bytes} {s : Tag2 E} {sk x : Pkt E} (hsk : matchesId cr id sk) {post : List (Pkt E)}
    (hpost : ∀ p ∈ post, ¬ matchesId cr id p) : ∀ {pre r : List (Pkt E)}, (∀ p ∈ pre, ¬ matchesId cr id p) →
    (∀ p ∈ pre ++ sk :: x :: post, p.body.tag ≠ 5) → (∀ p ∈ pre ++ sk :: x :: post, ∀ t, p.body.secretPart = some t → t.Sound) →
    subkeyInsert cr id s (pre ++ sk :: x :: post) = .ok r → r = pre.map publicPkt ++ publicPkt sk :: x :: sigPkt s :: post.map publicPkt
  | [], r, _, ht, hsd, h => by
    obtain ⟨htag, k, kid, hk, hkid, hcon⟩ := hsk
    have hp := fun {r'} h' => subkeyInsert_none (cr := cr) (id := id) (s := s) (ps := post) (r := r') hpost
      (fun q hq => ht q (by simp [hq])) (fun q hq => hsd q (by simp [hq])) h'
    rw [List.nil_append] at h
    unfold subkeyInsert at h
    split at h
    · rename_i t hb
      rw [hb] at hk
      obtain rfl := Option.some.inj hk
      rw [Tag5.getPublic_eq (hsd sk (by simp) t (by rw [hb]; rfl)), Out.ok_bind] at h
      dsimp only at h
      rw [keyidContains, hkid, Out.ok_bind, hcon] at h
      simp only [Out.pure_eq, Out.ok_bind, if_true] at h
      obtain ⟨r', hr', h1⟩ := Out.bind_eq_ok.mp h
      obtain rfl := Out.ok.inj h1
      rw [hp hr', List.map_nil, List.nil_append]
      congr 1
      rw [publicPkt, hb]
    · rename_i k' hb
      rw [hb] at hk
      obtain rfl := Option.some.inj hk
      rw [keyidContains, hkid, Out.ok_bind, hcon] at h
      simp only [Out.pure_eq, Out.ok_bind, if_true] at h
      obtain ⟨r', hr', h1⟩ := Out.bind_eq_ok.mp h
      obtain rfl := Out.ok.inj h1
      rw [hp hr', List.map_nil, List.nil_append]
      congr 1
      rw [publicPkt, hb]
    · rename_i h1 h2
      exfalso
      cases hb : sk.body with
      | secretSubkey t => exact h1 t hb
      | publicSubkey t => exact h2 t hb
      | _ =>
        rw [hb] at htag
        simp only [Body.tag] at htag
        omega
  | p :: pre, r, hm, ht, hsd, h => by
    have ih := fun {r'} h' => subkeyInsert_one (cr := cr) (id := id) (s := s) (x := x) hsk hpost (pre := pre) (r := r') (fun q hq => hm q (by simp [hq]))
      (fun q hq => ht q (by simp at hq ⊢; tauto)) (fun q hq => hsd q (by simp at hq ⊢; tauto)) h'
    have hmp := hm p (by simp)
    rw [List.cons_append] at h
    unfold subkeyInsert at h
    split at h
    · rename_i t hb
      rw [Tag5.getPublic_eq (hsd p (by simp) t (by rw [hb]; rfl)), Out.ok_bind] at h
      dsimp only at h
      obtain ⟨c, hc, h1⟩ := Out.bind_eq_ok.mp h
      obtain ⟨kid, hkid, hc⟩ := Out.bind_eq_ok.mp hc
      obtain rfl := Out.ok.inj hc
      rw [if_neg (fun hcon => hmp ⟨Or.inl (by rw [hb]; rfl), t.key, kid, by rw [hb]; rfl, hkid, hcon⟩)] at h1
      obtain ⟨r', hr', h1⟩ := Out.bind_eq_ok.mp h1
      obtain rfl := Out.ok.inj h1
      rw [ih hr', List.map_cons, List.cons_append]
      congr 1
      rw [publicPkt, hb]
    · rename_i k hb
      obtain ⟨c, hc, h1⟩ := Out.bind_eq_ok.mp h
      obtain ⟨kid, hkid, hc⟩ := Out.bind_eq_ok.mp hc
      obtain rfl := Out.ok.inj hc
      rw [if_neg (fun hcon => hmp ⟨Or.inr (by rw [hb]; rfl), k, kid, by rw [hb]; rfl, hkid, hcon⟩)] at h1
      obtain ⟨r', hr', h1⟩ := Out.bind_eq_ok.mp h1
      obtain rfl := Out.ok.inj h1
      rw [ih hr', List.map_cons, List.cons_append]
      congr 1
      rw [publicPkt, hb]
    · rename_i h1 h2
      obtain ⟨r', hr', h'⟩ := Out.bind_eq_ok.mp h
      obtain rfl := Out.ok.inj h'
      rw [ih hr', List.map_cons, List.cons_append]
      congr 1
      obtain ⟨f, x', b⟩ := p
      cases b <;> first
        | rfl
        | exact absurd rfl (h1 _)
        | exact (ht _ List.mem_cons_self rfl).elim

/-- Behind a subkey of a well-formed key stands a signature. -/
theorem sig_behind_subkey {k : KeyObj E} (hm : k.meaningful = .ok true) {p sk : Pkt E} {pre post : List (Pkt E)}
    (hp : k.packets = p :: (pre ++ sk :: post)) (hsk : sk.body.tag = 7 ∨ sk.body.tag = 14) :
    ∃ x rest, post = x :: rest ∧ IsSig x.body := by
  obtain ⟨key, subkey, ht⟩ := tags_of_meaningful hm
  have hk2 : subkey ≠ 2 := by
    cases hk : k.kind with
    | pub => rw [hk] at ht; obtain ⟨-, rfl⟩ := Prod.mk.inj (Option.some.inj ht); decide
    | sec => rw [hk] at ht; obtain ⟨-, rfl⟩ := Prod.mk.inj (Option.some.inj ht); decide
    | other => rw [hk] at ht; cases ht
  rw [KeyObj.meaningful, C30_meaningful_iff k.kind key subkey ht, hp] at hm
  have hm' : TransferableKey false key subkey (p.body :: (pre.map (·.body) ++ sk.body :: ([] ++ post.map (·.body)))) := by
    simpa using hm
  obtain ⟨revs, users, subkeys, gs1, gs2, more, hr, hu, hid, hsub, hpt, hv, e, hpre, hrest⟩ :=
    transferable_split hk2 hm' (not_isSig_of_tag (by omega)) (by simp)
  have hmem : (sk.body :: ([] ++ more)) ∈ users ++ subkeys := by rw [e]; simp
  rcases List.mem_append.mp hmem with hmem | hmem
  · obtain ⟨c, sg, e', ht', -⟩ := userBlock_split (hu _ hmem)
    obtain ⟨rfl, -⟩ := List.cons.inj e'
    omega
  · obtain ⟨c, sg, e', -, hsg, y, hy, -⟩ := hsub _ hmem
    obtain ⟨-, e'⟩ := List.cons.inj e'
    cases more with
    | nil => rw [← e'] at hy; exact absurd hy (by simp)
    | cons m more =>
      cases post with
      | nil => exact absurd hrest (by simp)
      | cons x rest =>
        refine ⟨x, rest, rfl, ?_⟩
        simp only [List.map_cons, List.cons_append, List.cons.injEq] at hrest
        rw [hrest.1]
        obtain ⟨s, hs, -⟩ := hsg m (by rw [← e']; simp)
        exact ⟨s, hs⟩

theorem publicPkt_sig {p : Pkt E} (h : IsSig p.body) : publicPkt p = p := by
  obtain ⟨f, a, b⟩ := p
  obtain ⟨s, hs⟩ := h
  dsimp only at hs
  subst hs
  rfl

/-- Revoking a subkey by an ID that names one subkey only: the result is the public form of the target with the revocation put behind
that subkey and its first signature; it is a good signature of the signer over this subkey; the result is well-formed and holds
nothing secret. -/
theorem C43_subkey (cr : Crypto) (hcr : cr.Ok) (rawE : E → Bytes) (a : RevokeArgs E) (before : List (Pkt E)) (t : Tag5) (pri : List Nat)
    (h : CanSign cr a.sign before t pri) (hsound : a.target.Sound) (now : Nat) (draws : List Nat) (id : Bytes) (p sk : Pkt E) (pre post : List (Pkt E))
    (hp : a.target.packets = p :: (pre ++ sk :: post)) (hsk : matchesId cr id sk) (hone : ∀ q ∈ pre ++ post, ¬ matchesId cr id q)
    (r : KeyObj E) (hr : revokeSubkey cr rawE a now draws id = .ok r) (hne : r.packets ≠ []) :
    ∃ x post' s sub, post = x :: post' ∧ IsSig x.body ∧ sk.body = .secretSubkey sub ∧
      r = ⟨.pub, (p :: pre).map publicPkt ++ publicPkt sk :: x :: sigPkt s :: post'.map publicPkt⟩ ∧
      Revocation cr rawE t 0x28 (.key sub.key) s ∧ r.meaningful = .ok true ∧ NoSecrets r := by
  have nope : ∀ {x : KeyObj E}, (pure noPublicKey : Out (KeyObj E)) = .ok x → x.packets = [] := by
    intro x hx
    cases Out.ok.inj hx
    rfl
  rw [revokeSubkey] at hr
  obtain ⟨v, hv, hr1⟩ := Out.bind_eq_ok.mp hr
  split at hr1
  · exact absurd (nope hr1) hne
  obtain ⟨os, hos, hr2⟩ := Out.bind_eq_ok.mp hr1
  cases os with
  | none => exact absurd (nope hr2) hne
  | some s =>
    obtain ⟨hvalid, -, pre1, sk1, post1, sub, kid, he, hb1, hkid, hcon, -, hrev⟩ := revokeSubkeySig_ok hcr h hos
    obtain ⟨-, -, htm, -⟩ := RevokeArgs.valid_true hvalid
    obtain ⟨htag, htail⟩ := tags_tail htm hp
    obtain ⟨x, post', rfl, hx⟩ := sig_behind_subkey htm hp hsk.1
    have hm1 : matchesId cr id sk1 := ⟨Or.inl (by rw [hb1]; rfl), sub.key, kid, by rw [hb1]; rfl, hkid, hcon⟩
    have hsk1 : sk1 = sk := by
      have hmem : sk1 ∈ p :: (pre ++ sk :: x :: post') := by rw [← hp, he]; simp
      rcases List.mem_cons.mp hmem with rfl | hmem
      · rw [hb1] at htag; simp [Body.tag] at htag
      rcases List.mem_append.mp hmem with hmem | hmem
      · exact absurd hm1 (hone _ (by simp [hmem]))
      rcases List.mem_cons.mp hmem with rfl | hmem
      · rfl
      · exact absurd hm1 (hone _ (by rw [List.mem_append]; exact Or.inr hmem))
    subst hsk1
    dsimp only at hr2
    rw [hp] at hr2
    dsimp only at hr2
    rw [publicPrimary_eq htag (hsound p (by rw [hp]; simp)), Out.ok_bind] at hr2
    obtain ⟨r', hr', hr3⟩ := Out.bind_eq_ok.mp hr2
    have hr'' := subkeyInsert_one hsk (fun q hq => hone q (by simp [hq])) (fun q hq => hone q (by simp [hq]))
      (fun q hq => (htail q hq).1) (fun q hq => hsound q (by rw [hp]; exact List.mem_cons_of_mem _ hq)) hr'
    subst hr''
    obtain rfl := Out.ok.inj hr3
    refine ⟨x, post', s, sub, rfl, hx, hb1, by simp, hrev, ?_, ?_⟩
    · have := meaningful_public hsound htm
      rw [KeyObj.meaningful, C30_meaningful_iff .pub 6 14 rfl, hp] at this
      rw [KeyObj.meaningful, C30_meaningful_iff .pub 6 14 rfl]
      have h1 : TransferableKey false 6 14 ((publicPkt p).body :: ((pre.map publicPkt).map (·.body) ++ (publicPkt sk1).body ::
          ([x.body] ++ (post'.map publicPkt).map (·.body)))) := by
        simpa [publicPkt_sig hx] using this
      have h2 := transferable_insert_subkey (x := (sigPkt s).body) (by decide) (by simp only [publicPkt, hb1]; rfl) h1 (by simpa using hx) ⟨s, rfl⟩
      simpa using h2
    · refine noSecrets_of fun q hq => ?_
      simp only [List.singleton_append, List.mem_cons, List.mem_append, List.mem_map] at hq
      rcases hq with rfl | ⟨y, -, rfl⟩ | rfl | rfl | rfl | ⟨y, -, rfl⟩
      · exact Or.inl ⟨_, rfl⟩
      · exact Or.inl ⟨_, rfl⟩
      · exact Or.inl ⟨_, rfl⟩
      · exact Or.inl ⟨_, (publicPkt_sig hx).symm⟩
      · exact Or.inr ⟨_, rfl⟩
      · exact Or.inl ⟨_, rfl⟩

theorem findSecretSubkey_none {cr : Crypto} {id : Bytes} : ∀ {ps : List (Pkt E)}, (∀ p ∈ ps, p.body.tag ≠ 7) → findSecretSubkey cr id ps = .ok none
  | [], _ => rfl
  | p :: ps, h => by
    rw [findSecretSubkey]
    split
    · rename_i t hb
      exact absurd (by rw [hb]; rfl) (h p (by simp))
    · exact findSecretSubkey_none fun q hq => h q (by simp [hq])

/-- Subkeys of a public key cannot be revoked: nothing but the empty key is ever returned. -/
theorem C43_subkey_public_fails (cr : Crypto) (rawE : E → Bytes) (a : RevokeArgs E) (hpub : a.target.kind = .pub) (now : Nat) (draws : List Nat)
    (id : Bytes) (r : KeyObj E) (hr : revokeSubkey cr rawE a now draws id = .ok r) : r.packets = [] := by
  have nope : ∀ {x : KeyObj E}, (pure noPublicKey : Out (KeyObj E)) = .ok x → x.packets = [] := by
    intro x hx
    cases Out.ok.inj hx
    rfl
  rw [revokeSubkey] at hr
  obtain ⟨v, hv, hr1⟩ := Out.bind_eq_ok.mp hr
  cases v with
  | false => exact nope hr1
  | true =>
    simp only [Bool.not_true, Bool.false_eq_true, if_false] at hr1
    obtain ⟨-, -, htm, -⟩ := RevokeArgs.valid_true hv
    have hno : ∀ p ∈ a.target.packets, p.body.tag ≠ 7 := by
      intro p hp
      rw [KeyObj.meaningful, hpub, C30_meaningful_iff .pub 6 14 rfl] at htm
      obtain ⟨p', revs, users, subkeys, e, h6, hrv, hu, -, hsub, -⟩ := htm
      have hb : p.body ∈ p' :: (revs ++ users.flatten ++ subkeys.flatten) := by rw [← e]; exact List.mem_map_of_mem hp
      have hsig : ∀ {b : Body E}, IsSig b → b.tag ≠ 7 := by
        rintro b ⟨s, rfl⟩
        simp [Body.tag]
      rcases List.mem_cons.mp hb with hb | hb
      · rw [hb, h6]; decide
      rcases List.mem_append.mp hb with hb | hb
      · rcases List.mem_append.mp hb with hb | hb
        · obtain ⟨s, hs, -⟩ := hrv _ hb
          exact hsig ⟨s, hs⟩
        · obtain ⟨g, hg, hbg⟩ := List.mem_flatten.mp hb
          obtain ⟨c, sigs, rfl, ht, hs⟩ := userBlock_split (hu g hg)
          rcases List.mem_cons.mp hbg with hbg | hbg
          · rw [hbg]; omega
          · exact hsig (hs _ hbg)
      · obtain ⟨g, hg, hbg⟩ := List.mem_flatten.mp hb
        obtain ⟨c, sigs, rfl, ht, hs⟩ := subkeyBlock_split (hsub g hg)
        rcases List.mem_cons.mp hbg with hbg | hbg
        · rw [hbg]; omega
        · exact hsig (hs _ hbg)
    obtain ⟨os, hos, hr2⟩ := Out.bind_eq_ok.mp hr1
    rw [revokeSubkeySig, hv, Out.ok_bind] at hos
    simp only [Bool.not_true, Bool.false_eq_true, if_false] at hos
    obtain ⟨sp, -, hos1⟩ := Out.bind_eq_ok.mp hos
    cases sp with
    | none => cases Out.ok.inj hos1; exact nope hr2
    | some bt =>
      dsimp only at hos1
      rw [findSecretSubkey_none hno, Out.ok_bind] at hos1
      cases Out.ok.inj hos1
      exact nope hr2

/-! ### User IDs -/

theorem libraryInput_user {rawE : E → Bytes} {k : KeyPkt} {b : Body E} {s : Tag2 E} (h : s.type = 0x30) :
    libraryInput rawE (.user k b) s = signUserInput rawE 0x30 k b s := by
  rw [libraryInput, if_pos h]

theorem revokeUidSig_ok {cr : Crypto} (hcr : cr.Ok) {rawE : E → Bytes} {a : RevokeArgs E} {before : List (Pkt E)} {t : Tag5} {pri : List Nat}
    (h : CanSign cr a.sign before t pri) {now : Nat} {draws : List Nat} {id : Bytes} {s : Tag2 E}
    (hs : revokeUidSig cr rawE a now draws id = .ok (some s)) :
    a.valid = .ok true ∧ s.version = a.version ∧ s.hashed = reasonFields a now ∧ ∃ pre p post u, a.target.packets = pre ++ p :: post ∧
      p.body = .userId u ∧ containsBytes id u = true ∧ Revocation cr rawE t 0x30 (.user t.key (.userId u)) s := by
  rw [revokeUidSig] at hs
  obtain ⟨v, hv, hs1⟩ := Out.bind_eq_ok.mp hs
  cases v with
  | false => exact absurd (Out.ok.inj hs1) (by simp)
  | true =>
    simp only [Bool.not_true, Bool.false_eq_true, if_false] at hs1
    obtain ⟨p0, _, -, -, hsp⟩ := signerPacket_of h
    rw [show a.signer = a.sign.pri from rfl, hsp, Out.ok_bind] at hs1
    dsimp only at hs1
    cases hfu : findUser id a.target.packets with
    | none => rw [hfu] at hs1; exact absurd (Out.ok.inj hs1) (by simp)
    | some r =>
      obtain ⟨bef, user, behind⟩ := r
      rw [hfu] at hs1
      dsimp only at hs1
      obtain ⟨pre, pu, u, rfl, rfl, hid, hcon, hps⟩ := findUser_spec id hfu
      obtain ⟨kid, hkid, hs2⟩ := Out.bind_eq_ok.mp hs1
      obtain ⟨i, vals, n, hi, hn, he, hsh⟩ := makeSig_ok hcr h (sig := { (createSig a.version 0x30 t.key.pka a.hash kid now : Tag2 E) with
        hashed := (createSig a.version 0x30 t.key.pka a.hash kid now : Tag2 E).hashed ++ [⟨false, .reason a.code a.reason⟩] }) rfl
        (input := signUserInput rawE 0x30 t.key pu.body) (draws := draws) (r := some s) hs2
      obtain rfl := Option.some.inj he
      have hv34 := (RevokeArgs.valid_true hv).2.2.2
      rw [hid] at hi
      refine ⟨hv, rfl, rfl, pre, pu, behind, u, by simpa using hps, hid, hcon, rfl, ⟨kid, hkid, rfl⟩, i, ?_, ⟨⟨n, hn⟩, hsh⟩, rfl⟩
      refine prescribed_of_input rawE (.user t.key (.userId u)) _ (by simp [Signed.fits, createSig]) (by simp [createSig])
        (by rintro k' id' h'; cases h'; exact Or.inl rfl) i ?_ hv34
      exact (libraryInput_user rfl).trans hi

/-- What becomes of a packet behind the primary key. -/
theorem uidInsert_eq {id : Bytes} {s : Tag2 E} : ∀ {ps r : List (Pkt E)}, (∀ p ∈ ps, p.body.tag ≠ 5) →
    (∀ p ∈ ps, ∀ t, p.body.secretPart = some t → t.Sound) → uidInsert id s ps = .ok r →
    r = ps.flatMap fun q => match q.body with
      | .userId u => if containsBytes id u then [q, sigPkt s] else []
      | _ => [publicPkt q]
  | [], r, _, _, h => (Out.ok.inj h).symm
  | p :: ps, r, ht, hsd, h => by
    have ih := fun {r'} h' => uidInsert_eq (id := id) (s := s) (ps := ps) (r := r')
      (fun q hq => ht q (by simp [hq])) (fun q hq => hsd q (by simp [hq])) h'
    rw [List.flatMap_cons]
    unfold uidInsert at h
    split at h
    · rename_i t hb
      rw [Tag5.getPublic_eq (hsd p (by simp) t (by rw [hb]; rfl)), Out.ok_bind] at h
      obtain ⟨r', hr', h1⟩ := Out.bind_eq_ok.mp h
      obtain rfl := Out.ok.inj h1
      rw [ih hr', hb]
      simp only [List.singleton_append]
      rw [publicPkt, hb]
    · rename_i u hb
      obtain ⟨r', hr', h1⟩ := Out.bind_eq_ok.mp h
      rw [← ih hr', hb]
      dsimp only
      split at h1
      · rename_i hc
        rw [if_pos hc]
        exact (Out.ok.inj h1).symm
      · rename_i hc
        rw [if_neg hc]
        exact (Out.ok.inj h1).symm
    · rename_i h1 h2
      obtain ⟨r', hr', h'⟩ := Out.bind_eq_ok.mp h
      obtain rfl := Out.ok.inj h'
      rw [← ih hr']
      obtain ⟨f, x, b⟩ := p
      cases b <;> first
        | rfl
        | exact absurd rfl (h1 _)
        | exact absurd rfl (h2 _)
        | exact (ht _ List.mem_cons_self rfl).elim

theorem revokeUid_ok {cr : Crypto} (hcr : cr.Ok) {rawE : E → Bytes} {a : RevokeArgs E} {before : List (Pkt E)} {t : Tag5} {pri : List Nat}
    (h : CanSign cr a.sign before t pri) (hsound : a.target.Sound) {now : Nat} {draws : List Nat} {id : Bytes}
    {r : KeyObj E} (hr : revokeUid cr rawE a now draws id = .ok r) (hne : r.packets ≠ []) :
    ∃ p ps s pre pu post u, a.target.packets = p :: ps ∧ a.target.packets = pre ++ pu :: post ∧ pu.body = .userId u ∧ containsBytes id u = true ∧
      a.target.meaningful = .ok true ∧ s.hashed = reasonFields a now ∧ Revocation cr rawE t 0x30 (.user t.key (.userId u)) s ∧
      r = ⟨.pub, publicPkt p :: ps.flatMap fun q => match q.body with
        | .userId u => if containsBytes id u then [q, sigPkt s] else []
        | _ => [publicPkt q]⟩ := by
  have nope : ∀ {x : KeyObj E}, (pure noPublicKey : Out (KeyObj E)) = .ok x → x.packets = [] := by
    intro x hx
    cases Out.ok.inj hx
    rfl
  rw [revokeUid] at hr
  obtain ⟨v, hv, hr1⟩ := Out.bind_eq_ok.mp hr
  split at hr1
  · exact absurd (nope hr1) hne
  obtain ⟨k1, -, hr1a⟩ := Out.bind_eq_ok.mp hr1
  obtain ⟨k2, -, hr1b⟩ := Out.bind_eq_ok.mp hr1a
  split at hr1b
  · exact absurd (nope hr1b) hne
  obtain ⟨os, hos, hr2⟩ := Out.bind_eq_ok.mp hr1b
  cases os with
  | none => exact absurd (nope hr2) hne
  | some s =>
    obtain ⟨hvalid, -, hhash, pre, pu, post, u, he, hb, hcon, hrev⟩ := revokeUidSig_ok hcr h hos
    obtain ⟨-, -, htm, -⟩ := RevokeArgs.valid_true hvalid
    obtain ⟨p, ps, hp⟩ := target_packets htm
    obtain ⟨htag, htail⟩ := tags_tail htm hp
    dsimp only at hr2
    rw [hp] at hr2
    dsimp only at hr2
    rw [publicPrimary_eq htag (hsound p (by rw [hp]; simp)), Out.ok_bind] at hr2
    obtain ⟨r', hr', hr3⟩ := Out.bind_eq_ok.mp hr2
    have hr'' := uidInsert_eq (fun q hq => (htail q hq).1) (fun q hq => hsound q (by rw [hp]; exact List.mem_cons_of_mem _ hq)) hr'
    obtain rfl := Out.ok.inj hr3
    exact ⟨p, ps, s, pre, pu, post, u, hp, he, hb, hcon, htm, hhash, hrev, by rw [hr'']; rfl⟩

/-- Revoking the user ID of a key that has one only: the result is the public form of the target with the revocation directly behind
the user ID; it is a good signature over the signer's key and this user ID, with the given reason; the result is well-formed and
holds nothing secret. Missing: keys with several user IDs, see `C43_uid_others_fails`. -/
theorem C43_uid_partial (cr : Crypto) (hcr : cr.Ok) (rawE : E → Bytes) (a : RevokeArgs E) (before : List (Pkt E)) (t : Tag5) (pri : List Nat)
    (h : CanSign cr a.sign before t pri) (hsound : a.target.Sound) (now : Nat) (draws : List Nat) (id : Bytes) (p pu : Pkt E) (pre post : List (Pkt E))
    (hp : a.target.packets = p :: (pre ++ pu :: post)) (u : Bytes) (hu : pu.body = .userId u) (hone : ∀ q ∈ pre ++ post, ∀ u', q.body ≠ .userId u')
    (r : KeyObj E) (hr : revokeUid cr rawE a now draws id = .ok r) (hne : r.packets ≠ []) :
    containsBytes id u = true ∧ ∃ s, r = ⟨.pub, (p :: pre).map publicPkt ++ pu :: sigPkt s :: post.map publicPkt⟩ ∧ s.hashed = reasonFields a now ∧
      Revocation cr rawE t 0x30 (.user t.key (.userId u)) s ∧ r.meaningful = .ok true ∧ NoSecrets r := by
  obtain ⟨p', ps, s, pre1, pu1, post1, u1, h1, h2, h3, h4, htm, h5, h6, rfl⟩ := revokeUid_ok hcr h hsound hr hne
  rw [hp] at h1
  obtain ⟨rfl, rfl⟩ := List.cons.inj h1
  obtain ⟨htag, htail⟩ := tags_tail htm hp
  have hpu : pu1 = pu := by
    have hmem : pu1 ∈ p :: (pre ++ pu :: post) := by rw [← hp, h2]; simp
    rcases List.mem_cons.mp hmem with rfl | hmem
    · rw [h3] at htag; simp [Body.tag] at htag
    rcases List.mem_append.mp hmem with hmem | hmem
    · exact absurd h3 (hone _ (by simp [hmem]) _)
    rcases List.mem_cons.mp hmem with rfl | hmem
    · rfl
    · exact absurd h3 (hone _ (by simp [hmem]) _)
  subst hpu
  rw [hu] at h3
  obtain rfl := Body.userId.inj h3
  have hmap : ∀ l : List (Pkt E), (∀ q ∈ l, ∀ u', q.body ≠ .userId u') → (l.flatMap fun q => match q.body with
      | .userId u => if containsBytes id u then [q, sigPkt s] else []
      | _ => [publicPkt q]) = l.map publicPkt := by
    intro l hl
    induction l with
    | nil => rfl
    | cons q l ih =>
      rw [List.flatMap_cons, ih fun x hx => hl x (by simp [hx]), List.map_cons]
      have := hl q (by simp)
      split
      · rename_i u' hb
        exact absurd hb (this u')
      · rfl
  have hres : (publicPkt p :: (pre ++ pu1 :: post).flatMap fun q => match q.body with
      | .userId u => if containsBytes id u then [q, sigPkt s] else []
      | _ => [publicPkt q]) = (p :: pre).map publicPkt ++ pu1 :: sigPkt s :: post.map publicPkt := by
    rw [List.flatMap_append, List.flatMap_cons, hmap pre fun q hq => hone q (by simp [hq]), hmap post fun q hq => hone q (by simp [hq]), hu]
    simp [h4]
  rw [hres]
  refine ⟨h4, s, rfl, h5, h6, ?_, ?_⟩
  · have := meaningful_public hsound htm
    rw [KeyObj.meaningful, C30_meaningful_iff .pub 6 14 rfl, hp] at this
    rw [KeyObj.meaningful, C30_meaningful_iff .pub 6 14 rfl]
    have hpp : (publicPkt pu1).body = .userId u := by rw [publicPkt]; simp [hu]
    have hm : TransferableKey false 6 14 ((publicPkt p).body :: ((pre.map publicPkt).map (·.body) ++ .userId u ::
        ([] ++ (post.map publicPkt).map (·.body)))) := by
      simpa [hpp] using this
    have h2 := transferable_insert_user (x := (sigPkt s).body) (by decide) hm (by simp) (Or.inr ⟨s, rfl, h6.type⟩)
    simpa [hu] using h2
  · refine noSecrets_of fun q hq => ?_
    simp only [List.mem_cons, List.mem_append, List.mem_map] at hq
    rcases hq with ⟨y, -, rfl⟩ | rfl | rfl | ⟨y, -, rfl⟩
    · exact Or.inl ⟨_, rfl⟩
    · refine Or.inl ⟨q, ?_⟩
      rw [publicPkt, hu]
    · exact Or.inr ⟨_, rfl⟩
    · exact Or.inl ⟨_, rfl⟩

/-- User IDs that do not match are lost: whatever the target has, every user ID of the result contains the given string. -/
theorem C43_uid_others_fails (cr : Crypto) (hcr : cr.Ok) (rawE : E → Bytes) (a : RevokeArgs E) (before : List (Pkt E)) (t : Tag5) (pri : List Nat)
    (h : CanSign cr a.sign before t pri) (hsound : a.target.Sound) (now : Nat) (draws : List Nat) (id : Bytes)
    (r : KeyObj E) (hr : revokeUid cr rawE a now draws id = .ok r) : ∀ q ∈ r.packets, ∀ u, q.body = .userId u → containsBytes id u = true := by
  intro q hq u hu
  have hne : r.packets ≠ [] := by intro h0; rw [h0] at hq; exact absurd hq (by simp)
  obtain ⟨p', ps, s, pre1, pu1, post1, u1, h1, h2, h3, h4, htm, h5, h6, rfl⟩ := revokeUid_ok hcr h hsound hr hne
  obtain ⟨htag, -⟩ := tags_tail htm h1
  rcases List.mem_cons.mp hq with rfl | hq
  · obtain ⟨f, x, b⟩ := p'
    cases b <;> simp [Body.tag] at htag <;> simp [publicPkt] at hu
  · obtain ⟨y, -, hy⟩ := List.mem_flatMap.mp hq
    split at hy
    · split at hy
      · rename_i u' hb hc
        simp only [List.mem_cons, List.not_mem_nil, or_false] at hy
        rcases hy with rfl | rfl
        · rw [hb] at hu; obtain rfl := Body.userId.inj hu; exact hc
        · simp [sigPkt] at hu
      · exact absurd hy (by simp)
    · rename_i hb
      obtain rfl := List.mem_singleton.mp hy
      obtain ⟨f, x, b⟩ := y
      cases b <;> simp [publicPkt] at hu
      exact absurd rfl (hb _)

end OpenPGP
