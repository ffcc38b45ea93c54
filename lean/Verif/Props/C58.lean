import Verif.Lemmas.SignedCrypt

/-!
# C58: signing and encrypting in one step

`Encrypt::sym` and `Encrypt::pka` with a signing key: decryption gives the signed message, which verifies for the public part of the signing key.
If no signature can be made, nothing is encrypted.
-/
namespace OpenPGP

/-- What is asked of the signing key and the data: the key can sign with the passphrase `spass`, its numbers have less than 32000 bits, the hash is known, a
signature `m0` comes out, the literal packet and the compressed packet have lengths that are read back (C04), compression is undone, and the compressed octets
do not look like armor. -/
structure SignedData (n : Nat) (w : World (SigAt n)) (a : EncArgs) (k : KeyObj (SigAt n)) (spass : Bytes) (pub : KeyObj (SigAt n)) (m0 : Msg (SigAt n)) : Prop where
  can : ∃ before t pri, CanSign w.cr ⟨k, spass, 4, a.hash⟩ before t pri ∧ SmallKey t.key
  pub : k.getPublic = .ok pub
  made : signBinary w.cr w.z w.rawE w.readE w.depth ⟨k, spass, 4, a.hash⟩ w.now w.nonces a.filename a.data 0 = .ok m0
  clock : w.now < 2 ^ 32
  lit : readableLen .new (6 + a.filename.length + a.data.length)
  undoes : a.comp ≠ 0 → ∀ out, writeRaw (Pkt.write w.rawE) m0.packets = .ok out → w.z.Undoes a.comp out
  fits : a.comp ≠ 0 → ∀ out d, writeRaw (Pkt.write w.rawE) m0.packets = .ok out → compress w.z a.comp out = .ok d → readableLen .new (1 + d.length) ∧
      ∀ l ∈ getlines (packetOctets .new 8 (a.comp :: d)), ¬ ascii "-----BEGIN PGP " <+: rtrim l

/-- What comes out of decryption: a one-pass signature packet, the data with the name and the time of signing, and a signature that verifies. -/
def IsSigned (n : Nat) (w : World (SigAt n)) (a : EncArgs) (pub : KeyObj (SigAt n)) (r : Msg (SigAt n)) : Prop :=
  (∃ o s, r.packets = [⟨.new, false, .onePass o⟩, ⟨.new, false, .literal ⟨0x62, a.filename, w.now, a.data⟩⟩, ⟨.new, false, .sig s⟩]) ∧
    r.comp = (if a.comp = 0 then none else some (.new, false, a.comp)) ∧
    ∀ depth, 0 < depth → verifyBinary w.cr w.z w.rawE w.readE depth pub r = .ok .yes

theorem signed_plain {n : Nat} {w : World (SigAt n)} (hraw : w.rawE = rawAt n) (hread : w.readE = readSigAt n) (hcr : w.cr.Ok) (hdep : 0 < w.depth) {a : EncArgs}
    {kl bs : Nat} (hu : a.Usable kl bs) {k : KeyObj (SigAt n)} {spass : Bytes} {pub : KeyObj (SigAt n)} {m0 : Msg (SigAt n)}
    (h : SignedData n w a k spass pub m0) :
    ∃ plain r, plainOctets w a (some (k, spass)) = .ok (some plain) ∧ (∀ depth, 2 ≤ depth → Msg.readRaw w.z w.readE depth plain = .ok r) ∧ IsSigned n w a pub r := by
  obtain ⟨before, t, pri, hc, hsm⟩ := h.can
  have hm := h.made
  rw [hraw, hread] at hm
  obtain ⟨o, s, hm0, hp, hy⟩ := signBinary_placed hcr h.clock hc rfl hsm hu.hash hu.name h.lit h.pub hm
  obtain ⟨plain, h1, h2⟩ := plainOctets_signed w hraw hread hdep a hu.comp k spass m0.packets (by rw [hm0]; rfl) (by rw [h.made, hm0]) hp h.undoes h.fits
  refine ⟨plain, _, h1, h2, ⟨o, s, by rw [hm0]⟩, rfl, fun depth hd => ?_⟩
  obtain ⟨d, rfl⟩ : ∃ d, depth = d + 1 := ⟨depth - 1, by omega⟩
  rw [hraw, hread]
  exact hy _ d

theorem encryptDataS_eq {E : Type} {w : World E} {a : EncArgs} {kl bs : Nat} (hu : a.Usable kl bs) {signer : Option (KeyObj E × Bytes)} {plain p key : Bytes} {e : Pkt E}
    (h1 : plainOctets w a signer = .ok (some plain)) (hr : w.rand.length = bs) (h2 : encPrefix w.rand = .ok p)
    (h3 : encPacket w.cr w.rawE a.sym a.mdc plain p key = .ok e) : encryptDataS w a signer key = .ok (some e) := by
  rw [encryptDataS, hu.valid]
  simp only [Bool.not_true, Bool.false_eq_true, if_false]
  rw [h1, Out.ok_bind]
  dsimp only
  rw [hu.block, mapAt, Out.ok_bind, if_neg (not_not.mpr hr), h2, Out.ok_bind, h3, Out.ok_bind]
  rfl

theorem encPacket_shape {E : Type} {cr : Crypto} {rawE : E → Bytes} {sym : UInt8} {mdc : Bool} {plain p key : Bytes} {e : Pkt E}
    (h : encPacket cr rawE sym mdc plain p key = .ok e) : ∃ d, e = ⟨.new, false, if mdc then .seip 1 d else .symEnc d⟩ := by
  cases mdc with
  | true =>
    simp only [encPacket, if_true] at h
    obtain ⟨_, -, h⟩ := Out.bind_eq_ok.mp h
    obtain ⟨_, -, h⟩ := Out.bind_eq_ok.mp h
    obtain ⟨d, -, h⟩ := Out.bind_eq_ok.mp h
    exact ⟨d, (Out.ok.inj h).symm⟩
  | false =>
    simp only [encPacket, Bool.false_eq_true, if_false] at h
    obtain ⟨d, -, h⟩ := Out.bind_eq_ok.mp h
    exact ⟨d, (Out.ok.inj h).symm⟩

/-- Encryption with a passphrase. -/
theorem C58_sym (n : Nat) (w : World (SigAt n)) (hraw : w.rawE = rawAt n) (hread : w.readE = readSigAt n) (hcr : w.cr.Ok) (hdep : 0 < w.depth) (a : EncArgs)
    (kl bs D : Nat) (hu : a.Usable kl bs) (k : KeyObj (SigAt n)) (spass : Bytes) (pub : KeyObj (SigAt n)) (m0 : Msg (SigAt n)) (h : SignedData n w a k spass pub m0)
    (hsalt : w.salt.length = 8) (hrand : w.rand.length = bs) (keyHash : UInt8) (hD : hashLen keyHash = some D) (pass : Bytes) (depth : Nat) (hd : 2 ≤ depth) :
    ∃ d m r, encryptSymS w a (some (k, spass)) pass keyHash = .ok m ∧
      m = ⟨none, [⟨.new, false, .skesk ⟨4, a.sym, some (.iterated keyHash w.salt 96), none⟩⟩, ⟨.new, false, if a.mdc then .seip 1 d else .symEnc d⟩]⟩ ∧
      decryptSym w.cr w.z w.readE depth m pass = .ok r ∧ IsSigned n w a pub r := by
  obtain ⟨plain, r, h1, h2, h3⟩ := signed_plain hraw hread hcr hdep hu h
  obtain ⟨key, hk2, hsk, hsub, hdec⟩ := sym_frame hcr w.z w.readE hu w.salt pass hsalt keyHash hD depth
  obtain ⟨p, e, g1, g2, g3, g4⟩ := data_frame hcr w.rawE w.readE hu w.rand key hrand hk2 depth plain _ (h2 depth hd)
  obtain ⟨d, hshape⟩ := encPacket_shape g2
  refine ⟨d, ⟨none, [⟨.new, false, .skesk ⟨4, a.sym, some (.iterated keyHash w.salt 96), none⟩⟩, e]⟩, r, ?_, by rw [hshape], ?_, h3⟩
  · rw [encryptSymS, hu.valid]
    simp only [Bool.not_true, Bool.false_eq_true, if_false]
    rw [if_neg (not_not.mpr hsalt)]
    simp only [Tag3.setS2K, Out.ok_bind]
    rw [hsk, Out.ok_bind, hsub, Out.ok_bind, encryptDataS_eq hu h1 hrand g1 g2, Out.ok_bind]
    rfl
  · rw [hdec e (by rw [g3]; cases a.mdc <;> simp)]
    exact g4 _ (Or.inr rfl)

/-- Encryption to the public part `epub` of a secret key `sec`, as in C26. -/
theorem C58_pka (n : Nat) (w : World (SigAt n)) (hraw : w.rawE = rawAt n) (hread : w.readE = readSigAt n) (hcr : w.cr.Ok) (hdep : 0 < w.depth) (a : EncArgs)
    (kl bs : Nat) (hu : a.Usable kl bs) (k : KeyObj (SigAt n)) (spass : Bytes) (pub : KeyObj (SigAt n)) (m0 : Msg (SigAt n)) (h : SignedData n w a k spass pub m0)
    (sec epub : KeyObj (SigAt n)) (hsec : sec.kind = .sec) (hsound : sec.Sound)
    (hmean : sec.meaningful = .ok true) (hpub : sec.getPublic = .ok epub) (hrev : epub.revokeCheck = .ok .no)
    (before after : List (Pkt (SigAt n))) (q : Pkt (SigAt n)) (t : Tag5) (hpk : sec.packets = before ++ q :: after) (hq : q.body.secretPart = some t)
    (hbefore : ∀ x ∈ before, ∀ t', x.body.secretPart = some t' → (∃ i, t'.key.keyid w.cr = .ok i) ∧ canEncrypt t'.key.pka = false)
    (kid : Bytes) (hkid : t.key.keyid w.cr = .ok kid) (pass : Bytes) (pri : List Nat)
    (hpri : t.decryptSecretKeys w.cr pass = .ok pri) (hek : EncryptionKey t.key.pka t.key.mpi pri)
    (modulus : Nat) (hmod : t.key.mpi[0]? = some modulus) (hbig : kl + 14 ≤ modulus.log2 / 8 + 1) (hsmall : modulus.log2 / 8 + 1 < 2 ^ 32)
    (hsk : w.sessionKey.length = kl) (hrand : w.rand.length = bs) (hdraws : modulus.log2 / 8 + 1 ≤ (w.padding.filter (· ≠ 0)).length)
    (depth : Nat) (hd : 2 ≤ depth) :
    ∃ m r, encryptPkaS w a (some (k, spass)) epub = .ok m ∧ m.comp = none ∧ m.packets.map (·.body.tag) = [1, if a.mdc then 18 else 9] ∧
      decryptPka w.cr w.z w.readE depth sec pass m = .ok r ∧ IsSigned n w a pub r := by
  obtain ⟨plain, r, h1, h2, h3⟩ := signed_plain hraw hread hcr hdep hu h
  obtain ⟨kp, c, hpm, hfind, hk, hw, hdec⟩ := pka_frame w.z w.readE a.sym sec epub hsec hsound hmean hpub before after q t hpk hq hbefore hkid pass pri hpri
    hek hmod hbig hsmall w.sessionKey w.padding w.ephemeral hsk hdraws depth
  obtain ⟨p, e, g1, g2, g3, g4⟩ := data_frame hcr w.rawE w.readE hu w.rand w.sessionKey hrand hsk depth plain _ (h2 depth hd)
  refine ⟨⟨none, [⟨.new, false, .pkesk ⟨3, kid, kp.pka, c⟩⟩, e]⟩, r, ?_, rfl, ?_, ?_, h3⟩
  · rw [encryptPkaS, hu.valid]
    simp only [Bool.not_true, Bool.false_eq_true, if_false]
    rw [hpm, Out.ok_bind]
    simp only [Bool.not_true, Bool.false_eq_true, if_false]
    rw [hrev, Out.ok_bind]
    simp only [hfind]
    rw [hk, Out.ok_bind, hu.key, mapAt, Out.ok_bind, if_neg (not_not.mpr hsk), hw, Out.ok_bind, encryptDataS_eq hu h1 hrand g1 g2, Out.ok_bind]
    rfl
  · simp only [List.map_cons, List.map_nil, g3]; rfl
  · rw [hdec e (by rw [g3]; cases a.mdc <;> simp)]
    exact g4 _ (Or.inl rfl)

/-- If no signature can be made (`Sign::binary` returns an empty message: a key without a signing packet, a wrong version, …), nothing is encrypted: whatever
message comes out is empty. -/
theorem C58_unsigned {E : Type} (w : World E) (a : EncArgs) (k : KeyObj E) (spass : Bytes)
    (h : signBinary w.cr w.z w.rawE w.readE w.depth ⟨k, spass, 4, a.hash⟩ w.now w.nonces a.filename a.data a.comp = .ok .empty) (m : Msg E) :
    (∀ pass keyHash, encryptSymS w a (some (k, spass)) pass keyHash = .ok m → m.packets = []) ∧
      ∀ epub, encryptPkaS w a (some (k, spass)) epub = .ok m → m.packets = [] := by
  have hnone : plainOctets w a (some (k, spass)) = .ok none := by
    simp only [plainOctets]
    rw [h, Out.ok_bind]
    have : (Msg.empty : Msg E).meaningful = .ok false := by
      show messageMeaningful [] = _
      decide
    rw [this]
    rfl
  have hdata : ∀ key, encryptDataS w a (some (k, spass)) key = .ok none := by
    intro key
    rw [encryptDataS, hnone]
    split <;> rfl
  constructor
  · intro pass keyHash hm
    rw [encryptSymS] at hm
    split at hm
    · obtain rfl := Out.ok.inj hm; rfl
    split at hm
    · cases hm
    obtain ⟨t, -, hm⟩ := Out.bind_eq_ok.mp hm
    obtain ⟨sk, -, hm⟩ := Out.bind_eq_ok.mp hm
    obtain ⟨key, -, hm⟩ := Out.bind_eq_ok.mp hm
    rw [hdata, Out.ok_bind] at hm
    obtain rfl := Out.ok.inj hm; rfl
  · intro epub hm
    rw [encryptPkaS] at hm
    split at hm
    · obtain rfl := Out.ok.inj hm; rfl
    obtain ⟨good, -, hm⟩ := Out.bind_eq_ok.mp hm
    split at hm
    · obtain rfl := Out.ok.inj hm; rfl
    obtain ⟨rv, -, hm⟩ := Out.bind_eq_ok.mp hm
    cases rv with
    | yes => obtain rfl := Out.ok.inj hm; rfl
    | error => obtain rfl := Out.ok.inj hm; rfl
    | no =>
      dsimp only at hm
      split at hm
      · obtain rfl := Out.ok.inj hm; rfl
      obtain ⟨kid, -, hm⟩ := Out.bind_eq_ok.mp hm
      obtain ⟨n, -, hm⟩ := Out.bind_eq_ok.mp hm
      split at hm
      · cases hm
      obtain ⟨c, -, hm⟩ := Out.bind_eq_ok.mp hm
      rw [hdata, Out.ok_bind] at hm
      obtain rfl := Out.ok.inj hm; rfl

end OpenPGP
