import Verif.Props.C37
import Verif.Props.C31
import Verif.Props.C23
import Verif.Props.C26
import Verif.Props.C15
import Verif.Lemmas.KeyLayout

/-!
# C36: signatures made by the library verify
-/
namespace OpenPGP
open Rfc
variable {E : Type}

/-- A key pair that can sign: RSA (encrypt or sign) or DSA. -/
def SigningPair (pka : UInt8) (pub pri : List Nat) : Prop := (pka = 1 ∧ RsaKey pub pri) ∨ (pka = 17 ∧ DsaKey pub pri)

/-- The signing key of the secret key object is the packet `t`, behind the packets `before`; the passphrase opens it, and its values are
a key pair. -/
structure CanSign (cr : Crypto) (a : SignArgs E) (before : List (Pkt E)) (t : Tag5) (pri : List Nat) : Prop where
  sec : a.pri.kind = .sec
  meaningful : a.pri.meaningful = .ok true
  sound : a.pri.Sound
  sized : a.pri.Sized
  packets : ∃ p after, a.pri.packets = before ++ p :: after ∧ p.body.secretPart = some t
  first : ∀ q ∈ before, ∀ k, q.body.keyPart = some k → ¬ (k.pka = 1 ∨ k.pka = 3 ∨ k.pka = 17)
  opens : t.decryptSecretKeys cr a.pass = .ok pri
  pair : SigningPair t.key.pka t.key.mpi pri

theorem keyPart_of_secretPart {b : Body E} {t : Tag5} (h : b.secretPart = some t) : b.keyPart = some t.key := by
  cases b <;> simp_all [Body.secretPart, Body.keyPart]

theorem SigningPair.canSign {pka : UInt8} {pub pri : List Nat} (h : SigningPair pka pub pri) : pka = 1 ∨ pka = 3 ∨ pka = 17 := by
  rcases h with ⟨h, -⟩ | ⟨h, -⟩
  · exact Or.inl h
  · exact Or.inr (Or.inr h)

theorem CanSign.signerOf {cr : Crypto} {a : SignArgs E} {before : List (Pkt E)} {t : Tag5} {pri : List Nat} (h : CanSign cr a before t pri) :
    signerOf a.pri = .ok (some t) := by
  obtain ⟨p, after, hp, ht⟩ := h.packets
  have hf : a.pri.packets.find? (fun p => match p.body.keyPart with | some kp => OpenPGP.canSign kp.pka | none => false) = some p := by
    rw [List.find?_eq_some_iff_append]
    refine ⟨?_, before, after, hp, ?_⟩
    · rw [keyPart_of_secretPart ht]
      exact (canSign_iff _).mpr h.pair.canSign
    · intro q hq
      cases hk : q.body.keyPart with
      | none => rfl
      | some k =>
        have := h.first q hq k hk
        rw [← canSign_iff] at this
        simpa using this
  rw [OpenPGP.signerOf, KeyObj.findSigningKey, h.meaningful, Out.ok_bind]
  simp only [Bool.not_true, Bool.false_eq_true, if_false, Out.pure_eq, Out.ok_bind]
  generalize hg : List.find? _ a.pri.packets = o
  obtain rfl : o = some p := hg.symm.trans hf
  simp only [ht]

theorem keyPart_publicPkt (p : Pkt E) : (publicPkt p).body.keyPart = match p.body with
    | .secretKey t => some t.key.reread
    | .secretSubkey t => some t.key.reread
    | b => b.keyPart := by
  obtain ⟨f, q, b⟩ := p
  cases b <;> rfl

theorem keyPart_publicPkt_some {p : Pkt E} {k : KeyPkt} (h : (publicPkt p).body.keyPart = some k) :
    ∃ k', p.body.keyPart = some k' ∧ k'.SamePublic k := by
  obtain ⟨f, q, b⟩ := p
  cases b with
  | secretKey t => obtain rfl := Option.some.inj h; exact ⟨t.key, rfl, KeyPkt.samePublic_reread _⟩
  | secretSubkey t => obtain rfl := Option.some.inj h; exact ⟨t.key, rfl, KeyPkt.samePublic_reread _⟩
  | publicKey t => obtain rfl := Option.some.inj h; exact ⟨t, rfl, rfl, rfl, rfl, rfl, fun _ => rfl⟩
  | publicSubkey t => obtain rfl := Option.some.inj h; exact ⟨t, rfl, rfl, rfl, rfl, rfl, fun _ => rfl⟩
  | _ => exact absurd h (by simp [publicPkt, Body.keyPart])

/-- What the public key of the signer is like. -/
theorem CanSign.public {cr : Crypto} {a : SignArgs E} {before : List (Pkt E)} {t : Tag5} {pri : List Nat} (h : CanSign cr a before t pri) :
    ∃ pub, a.pri.getPublic = .ok pub ∧ pub.kind = .pub ∧ pub.meaningful = .ok true ∧ pub.Sized ∧
      (∃ kp, SigningKey pub kp ∧ kp.mpi = t.key.mpi ∧ kp.keyid cr = t.key.keyid cr) ∧
      (before = [] → pub.keyid cr = t.key.keyid cr) := by
  obtain ⟨pub, hpub, hm⟩ := C31_meaningful a.pri h.sound h.sec h.meaningful
  have hpe := hpub
  rw [getPublic_eq a.pri h.sound] at hpe
  obtain rfl := Out.ok.inj hpe
  obtain ⟨p, after, hp, ht⟩ := h.packets
  have hkp : (publicPkt p).body.keyPart = some t.key.reread := by
    rw [keyPart_publicPkt]
    cases hb : p.body with
    | secretKey t' => rw [hb] at ht; obtain rfl := Option.some.inj ht; rfl
    | secretSubkey t' => rw [hb] at ht; obtain rfl := Option.some.inj ht; rfl
    | _ => rw [hb] at ht; exact absurd ht (by simp [Body.secretPart])
  have hsp := KeyPkt.samePublic_reread t.key
  refine ⟨_, hpub, rfl, hm, ?_, ⟨t.key.reread, ?_, hsp.2.2.2.1, KeyPkt.keyid_reread cr t.key⟩, ?_⟩
  · intro q hq kp hk n hn
    obtain ⟨q', hq', rfl⟩ := List.mem_map.mp hq
    obtain ⟨k', hk', hs⟩ := keyPart_publicPkt_some hk
    exact h.sized q' hq' k' hk' n (by rw [← hs.2.2.2.1]; exact hn)
  · refine ⟨before.map publicPkt, publicPkt p, after.map publicPkt, by simp [hp], hkp, ?_, ?_⟩
    · rw [hsp.2.2.1]; exact h.pair.canSign
    · intro q hq k hk
      obtain ⟨q', hq', rfl⟩ := List.mem_map.mp hq
      obtain ⟨k', hk', hs⟩ := keyPart_publicPkt_some hk
      rw [hs.2.2.1]
      exact h.first q' hq' k' hk'
  · rintro rfl
    rw [KeyObj.keyid, hm, Out.ok_bind]
    simp only [Bool.not_true, Bool.false_eq_true, if_false, hp, List.nil_append, List.map_cons]
    rw [hkp]
    exact KeyPkt.keyid_reread cr t.key

theorem keyid_length (cr : Crypto) (hcr : cr.Ok) {k : KeyPkt} {kid : Bytes} (h : k.keyid cr = .ok kid) : kid.length = 8 := by
  rw [KeyPkt.keyid] at h
  split at h
  · obtain ⟨m, -, h⟩ := Out.bind_eq_ok.mp h
    dsimp only at h
    rw [substr] at h
    split at h
    · exact absurd h (by simp)
    · rename_i hc
      obtain rfl := Out.ok.inj h
      by_cases h8 : 8 ≤ (mpiOctets m).length
      · have : subSz (mpiOctets m).length 8 = (mpiOctets m).length - 8 := if_pos h8
        rw [this, List.length_take, List.length_drop]
        omega
      · have : subSz (mpiOctets m).length 8 = (mpiOctets m).length + 2 ^ 64 - 8 := if_neg h8
        rw [this] at hc
        omega
  · split at h
    · rename_i hv
      obtain ⟨f, -, -, -, hk, hl⟩ := C11_keyid cr hcr k hv
      have h' : k.keyid cr = .ok kid := by rw [KeyPkt.keyid, if_neg (by assumption), if_pos hv]; exact h
      rw [hk] at h'
      obtain rfl := Out.ok.inj h'
      exact hl
    · exact absurd h (by simp)

/-- Values made with a key pair satisfy the equation. -/
theorem signPka_holds {hash pka : UInt8} {digest : Bytes} {pub pri vals draws : List Nat} (hl : hashLen hash = some digest.length)
    (hb : ∀ n, pub[0]? = some n → n.log2 < 2 ^ 32) (hk : SigningPair pka pub pri) (h : signPka draws digest pka pri pub hash = .ok vals) :
    SignatureHolds hash pka digest pub vals ∧ vals ≠ [] := by
  have hne : digest ≠ [] := by
    rintro rfl
    exact absurd (hashLen_pos hl) (by simp)
  rw [signPka] at h
  rcases hk with ⟨rfl, hk⟩ | ⟨rfl, hk⟩
  · rw [if_pos (Or.inl rfl)] at h
    obtain ⟨n, hn, h⟩ := Out.bind_eq_ok.mp h
    obtain ⟨em, hem, h⟩ := Out.bind_eq_ok.mp h
    obtain ⟨s, hs, h⟩ := Out.bind_eq_ok.mp h
    obtain rfl := Out.ok.inj h
    refine ⟨Or.inl ⟨Or.inl rfl, (rsaVerify_iff hl hb).mp ⟨n, em, hn, hem, ?_⟩⟩, by simp⟩
    have hn0 := vecAt_eq_ok.mp hn
    obtain ⟨_, d, _, hd, _⟩ := asn1Der_spec hl
    have hlog := hb n hn0
    have hbs : bitsize n / 8 = (n.log2 + 1) / 8 := rfl
    have hkk : d.length + 3 + digest.length ≤ bitsize n / 8 := by
      by_contra hc
      rw [C19_too_short_throws hl hd (by omega)] at hem
      exact absurd hem (by simp)
    rw [C19_encode hl hd hkk (by rw [hbs]; omega)] at hem
    have hem := (Out.ok.inj hem).symm
    rw [rsaSign, rawtompi_eq, if_neg (by rw [hem]; simp), Out.ok_bind] at hs
    rw [rsaVerify, rawtompi_eq, if_neg (by rw [hem]; simp), Out.ok_bind]
    have hlt : num em < n := by
      have h1 : num em < 256 ^ (em.length - 1) := by
        rw [hem]
        simp only [List.cons_append, List.nil_append, List.append_assoc]
        rw [num_cons]
        simp only [UInt8.toNat_zero, Nat.zero_mul, Nat.zero_add, List.length_cons, Nat.add_sub_cancel]
        exact num_lt _
      have h2 : em.length = bitsize n / 8 := by
        rw [hem]
        simp only [List.length_append, List.length_cons, List.length_nil, List.length_replicate]
        omega
      have h3 : (256 : Nat) ^ (em.length - 1) ≤ n := by
        have h4 : (256 : Nat) ^ (em.length - 1) = 2 ^ (8 * (em.length - 1)) := by rw [Nat.pow_mul]
        have hpos : n ≠ 0 := by
          rintro rfl
          rw [hbs] at hkk
          simp at hkk
        rw [h4, ← Nat.le_log2 hpos, h2, hbs]
        omega
      omega
    obtain ⟨-, s', hs', -, hv⟩ := C23_roundtrip hk hn0 hlt
    rw [hs] at hs'
    obtain rfl := Out.ok.inj hs'
    exact hv
  · rw [if_neg (by decide), if_pos rfl, dsaSign, rawtompi_eq, if_neg hne, Out.ok_bind] at h
    obtain ⟨p, q, g, y, r, s, rfl, rfl, -, hv⟩ := C25_sign_verifies hk h
    refine ⟨Or.inr ⟨rfl, (dsaVerify_holds hne).mp ?_⟩, by simp⟩
    rw [dsaVerify, rawtompi_eq, if_neg hne, Out.ok_bind]
    exact hv

/-- The signature packet a signing operation makes. -/
theorem makeSig_ok {cr : Crypto} (hcr : cr.Ok) {a : SignArgs E} {before : List (Pkt E)} {t : Tag5} {pri draws : List Nat} (h : CanSign cr a before t pri)
    {sig : Tag2 E} (hpka : sig.pka = t.key.pka) {input : Tag2 E → Out Bytes} {r : Option (Tag2 E)} (hm : makeSig cr a draws t sig input = .ok r) :
    ∃ i vals n, input sig = .ok i ∧ hashLen sig.hash = some n ∧ r = some { sig with left16 := (cr.hash sig.hash i).take 2, mpi := vals } ∧
      SignatureHolds sig.hash sig.pka (cr.hash sig.hash i) t.key.mpi vals := by
  rw [makeSig] at hm
  obtain ⟨d, hd, hm⟩ := Out.bind_eq_ok.mp hm
  obtain ⟨i, hi, hd⟩ := Out.bind_eq_ok.mp hd
  rw [hashUse] at hd
  split at hd
  · rename_i hsome
    obtain ⟨n, hn⟩ := Option.isSome_iff_exists.mp hsome
    obtain rfl := Out.ok.inj hd
    rw [finishSig] at hm
    obtain ⟨l, hl, hm⟩ := Out.bind_eq_ok.mp hm
    rw [substr, if_neg (by omega)] at hl
    obtain rfl := Out.ok.inj hl
    rw [h.opens, Out.ok_bind] at hm
    obtain ⟨vals, hv, hm⟩ := Out.bind_eq_ok.mp hm
    obtain ⟨p, after, hp, ht⟩ := h.packets
    have hsz : ∀ n, t.key.mpi[0]? = some n → n.log2 < 2 ^ 32 := fun n hn =>
      h.sized p (by rw [hp]; simp) t.key (keyPart_of_secretPart ht) n (List.mem_of_getElem? hn)
    obtain ⟨hs, hne⟩ := signPka_holds (by rw [hn, hcr.hash_len _ _ _ hn]) hsz h.pair hv
    rw [if_neg hne] at hm
    exact ⟨i, vals, n, hi, hn, (Out.ok.inj hm).symm, hpka ▸ hs⟩
  · exact absurd hd (by simp)

/-! ### Documents -/

theorem SignArgs.valid_of {cr : Crypto} {a : SignArgs E} {before : List (Pkt E)} {t : Tag5} {pri : List Nat} (h : CanSign cr a before t pri)
    (hv : a.version = 3 ∨ a.version = 4) {n : Nat} (hn : hashLen a.hash = some n) : a.valid = .ok true := by
  have hnamed : hashNamed a.hash = true := by
    rcases hashAlg_cases hn with h | h | h | h | h | h | h <;> rw [h] <;> decide
  rw [SignArgs.valid, if_neg (by simp [h.sec]), h.meaningful, Out.ok_bind]
  simp only [Bool.not_true, Bool.false_eq_true, if_false]
  rw [if_neg (by rcases hv with hv | hv <;> rw [hv] <;> decide), hnamed]
  rfl

theorem getKeyid_v4 (s : Tag2 E) (hv : s.version = 4) (kid : Bytes) (hu : s.unhashed = [⟨false, .issuer kid⟩]) : s.getKeyid = .ok kid := by
  rw [Tag2.getKeyid, if_neg (by rw [hv]; decide), if_pos hv, hu]
  rfl

/-- A document signature made by the primary key is good for the public key. -/
theorem goodDocument_of_makeSig {cr : Crypto} (hcr : cr.Ok) {a : SignArgs E} {t : Tag5} {pri draws : List Nat} (h : CanSign cr a [] t pri)
    {pub : KeyObj E} (hpub : a.pri.getPublic = .ok pub) {kid : Bytes} (hkid : t.key.keyid cr = .ok kid) {sig : Tag2 E} (hv : sig.version = 4)
    (hpka : sig.pka = t.key.pka) (hu : sig.unhashed = [⟨false, .issuer kid⟩]) {input : Tag2 E → Out Bytes} {r : Option (Tag2 E)}
    (hm : makeSig cr a draws t sig input = .ok r) :
    ∃ i vals, input sig = .ok i ∧ r = some { sig with left16 := (cr.hash sig.hash i).take 2, mpi := vals } ∧ pub.Sized ∧
      GoodDocument cr pub { sig with left16 := (cr.hash sig.hash i).take 2, mpi := vals } i := by
  obtain ⟨i, vals, n, hi, hn, hr, hs⟩ := makeSig_ok hcr h hpka hm
  obtain ⟨pub', hpub', -, hpm, hsz, ⟨kp, hsk, hmpi, -⟩, hown⟩ := h.public
  rw [hpub] at hpub'
  obtain rfl := Out.ok.inj hpub'
  have hl := keyid_length cr hcr hkid
  exact ⟨i, vals, hi, hr, hsz, hpm, ⟨kid, (by rintro rfl; exact absurd hl (by decide)), getKeyid_v4 _ hv kid hu, by rw [hown rfl, hkid]⟩, rfl, kp, hsk,
    ⟨n, hn⟩, hmpi ▸ hs⟩

/-- Hashing looks at no field that is filled in later. -/
theorem hashed_complete {rawE : E → Bytes} {c : Bytes} {s : Tag2 E} {i l : Bytes} {vals : List Nat} (h : Hashed rawE c s i) :
    Hashed rawE c { s with left16 := l, mpi := vals } i := h

/-- Detached signatures made by the primary key verify with its public key. -/
theorem C36_detached (cr : Crypto) (hcr : cr.Ok) (rawE : E → Bytes) (a : SignArgs E) (t : Tag5) (pri : List Nat) (h : CanSign cr a [] t pri)
    (hv : a.version = 4) (hn : (hashLen a.hash).isSome) (hrev : a.pri.revokeCheck = .ok .no) (now : Nat) (draws : List Nat) (data : Bytes)
    (sig : PgpObj (Pkt E)) (pub : KeyObj E) (hpub : a.pri.getPublic = .ok pub) (hs : signDetached cr rawE a now draws data = .ok sig) :
    verifyDetached cr rawE pub data sig = .ok .yes := by
  obtain ⟨n, hn⟩ := Option.isSome_iff_exists.mp hn
  rw [signDetached, SignArgs.valid_of h (Or.inr hv) hn, Out.ok_bind] at hs
  simp only [Bool.not_true, Bool.false_eq_true, if_false] at hs
  rw [h.signerOf, Out.ok_bind] at hs
  dsimp only at hs
  rw [hrev, Out.ok_bind] at hs
  dsimp only at hs
  obtain ⟨kid, hkid, hs⟩ := Out.bind_eq_ok.mp hs
  obtain ⟨r, hr, hs⟩ := Out.bind_eq_ok.mp hs
  obtain ⟨i, vals, hi, rfl, hsz, hg⟩ := goodDocument_of_makeSig hcr h hpub hkid hv rfl rfl hr
  obtain rfl := Out.ok.inj hs
  rw [C37_detached cr hcr rawE pub hsz]
  exact ⟨_, i, ⟨rfl, _, rfl, rfl⟩, hashed_complete ((addtrailer_iff _ _ _ _).mp hi), hg⟩

/-- Cleartext signatures made by the primary key verify with its public key. -/
theorem C36_cleartext (cr : Crypto) (hcr : cr.Ok) (rawE : E → Bytes) (a : SignArgs E) (t : Tag5) (pri : List Nat) (h : CanSign cr a [] t pri)
    (hv : a.version = 4) (hn : (hashLen a.hash).isSome) (now : Nat) (draws : List Nat) (text : Bytes) (m : Cleartext (Pkt E)) (pub : KeyObj E)
    (hpub : a.pri.getPublic = .ok pub) (hs : signCleartext cr rawE a now draws text = .ok m) :
    m.message = text ∧ verifyCleartext cr rawE pub m = .ok .yes := by
  obtain ⟨n, hn⟩ := Option.isSome_iff_exists.mp hn
  rw [signCleartext, SignArgs.valid_of h (Or.inr hv) hn, Out.ok_bind] at hs
  simp only [Bool.not_true, Bool.false_eq_true, if_false] at hs
  rw [h.signerOf, Out.ok_bind] at hs
  dsimp only at hs
  obtain ⟨kid, hkid, hs⟩ := Out.bind_eq_ok.mp hs
  obtain ⟨r, hr, hs⟩ := Out.bind_eq_ok.mp hs
  obtain ⟨i, vals, hi, rfl, hsz, hg⟩ := goodDocument_of_makeSig hcr h hpub hkid hv rfl rfl hr
  obtain rfl := Out.ok.inj hs
  refine ⟨rfl, ?_⟩
  rw [C37_cleartext cr hcr rawE pub hsz]
  rw [sign01Input, canonicalBody_eq] at hi
  exact ⟨_, i, ⟨rfl, _, rfl, rfl⟩, hashed_complete ((addtrailer_iff _ _ _ _).mp hi), hg⟩

/-- Timestamps made by the primary key verify with its public key. -/
theorem C36_timestamp (cr : Crypto) (hcr : cr.Ok) (rawE : E → Bytes) (a : SignArgs E) (t : Tag5) (pri : List Nat) (h : CanSign cr a [] t pri)
    (hv : a.version = 4) (hn : (hashLen a.hash).isSome) (now : Nat) (draws : List Nat) (time : Nat) (sig : PgpObj (Pkt E)) (pub : KeyObj E)
    (hpub : a.pri.getPublic = .ok pub) (hs : signTimestamp cr rawE a now draws time = .ok sig) :
    verifyTimestamp cr rawE pub sig = .ok .yes ∧ ∃ s : Tag2 E, IsDetached sig s ∧ s.hashed = [⟨false, .sigTime time⟩] := by
  obtain ⟨n, hn⟩ := Option.isSome_iff_exists.mp hn
  rw [signTimestamp, SignArgs.valid_of h (Or.inr hv) hn, Out.ok_bind] at hs
  simp only [Bool.not_true, Bool.false_eq_true, if_false] at hs
  rw [h.signerOf, Out.ok_bind] at hs
  dsimp only at hs
  obtain ⟨kid, hkid, hs⟩ := Out.bind_eq_ok.mp hs
  obtain ⟨r, hr, hs⟩ := Out.bind_eq_ok.mp hs
  obtain ⟨i, vals, hi, rfl, hsz, hg⟩ := goodDocument_of_makeSig hcr h hpub hkid hv rfl rfl hr
  obtain rfl := Out.ok.inj hs
  refine ⟨?_, _, ⟨rfl, _, rfl, rfl⟩, rfl⟩
  rw [C37_timestamp cr hcr rawE pub hsz]
  rw [sign40Input, if_neg (by simp [createSig])] at hi
  exact ⟨_, i, ⟨rfl, _, rfl, rfl⟩, rfl, hashed_complete ((addtrailer_iff _ _ _ _).mp hi), hg⟩

/-! ### Signed messages -/

/-- A one-pass signed literal packet verifies when the values are right. -/
theorem verifyBinary_signed (cr : Crypto) (hcr : cr.Ok) (z : Zip) (rawE : E → Bytes) (readE : Bytes → Out E) (depth : Nat) (k : KeyObj E) (hk : k.Sized)
    (hm : k.meaningful = .ok true) {kp : KeyPkt} (hsk : SigningKey k kp) (comp : Option (Fmt × Bool × UInt8)) {o : Tag4} (t : Tag11)
    (ho : kp.keyid cr = .ok o.keyid) (s : Tag2 E) {i : Bytes} (hi : addtrailer rawE t.literal s = .ok i) (hg : GoodValues cr kp s i) :
    verifyBinary cr z rawE readE (depth + 1) k ⟨comp, [⟨.new, false, .onePass o⟩, ⟨.new, false, .literal t⟩, ⟨.new, false, .sig s⟩]⟩ = .ok .yes := by
  have ht : ([⟨.new, false, .onePass o⟩, ⟨.new, false, .literal t⟩, ⟨.new, false, .sig s⟩] : List (Pkt E)).map (·.body.tag) = [4, 11, 2] := rfl
  have h1 : messageMeaningful [4, 11, 2] = .ok true := by decide
  have h2 : matchTags [4, 11, 2] .encryptedMessage = .ok false := by decide
  have h3 : matchTags [4, 11, 2] .signedMessage = .ok true := by decide
  rw [verifyBinary, hm, Out.ok_bind]
  simp only [Bool.not_true, Bool.false_eq_true, if_false, Msg.meaningful, ht, h1, h2, h3, Out.ok_bind, if_true]
  rw [verifySigned, if_pos ⟨by simp, rfl, rfl⟩, (signingFields_iff hm kp).mpr hsk, Out.ok_bind]
  have hn : (([⟨.new, false, .onePass o⟩, ⟨.new, false, .literal t⟩, ⟨.new, false, .sig s⟩] : List (Pkt E)).takeWhile
      fun p => p.body.tag == 4).length = 1 := rfl
  simp only [hn]
  rw [if_neg (by simp), if_neg (by simp)]
  have hv := (verifyWith_iff cr hcr (hsk.sized hk) s (sign00Input rawE t.literal s)).mpr ⟨i, hi, hg⟩
  obtain ⟨d, hd, hv⟩ := Out.bind_eq_ok.mp hv
  simp only [pairLoop, vecAt, List.getElem?_cons_zero, Out.ok_bind, ho, if_true, List.length_cons, List.length_nil,
    List.take_succ_cons, List.take_zero, List.drop_succ_cons, List.drop_zero, signedOctets, Out.pure_eq, List.append_nil,
    List.getElem?_cons_succ, Nat.zero_add, Nat.reduceAdd, Nat.reduceSub, hd, hv]

/-- Signed messages verify with the public key, also when a subkey signs. -/
theorem C36_binary (cr : Crypto) (hcr : cr.Ok) (z : Zip) (rawE : E → Bytes) (readE : Bytes → Out E) (depth depth' : Nat) (a : SignArgs E)
    (before : List (Pkt E)) (t : Tag5) (pri : List Nat) (h : CanSign cr a before t pri) (hv : a.version = 3 ∨ a.version = 4)
    (hn : (hashLen a.hash).isSome) (now : Nat) (draws : List Nat) (filename data : Bytes) (m : Msg E) (pub : KeyObj E)
    (hpub : a.pri.getPublic = .ok pub) (hs : signBinary cr z rawE readE depth a now draws filename data 0 = .ok m) :
    verifyBinary cr z rawE readE (depth' + 1) pub m = .ok .yes ∧
      ∃ o s, m = ⟨none, [⟨.new, false, .onePass o⟩, ⟨.new, false, .literal ⟨0x62, filename, now, data⟩⟩, ⟨.new, false, .sig s⟩]⟩ := by
  obtain ⟨n, hn⟩ := Option.isSome_iff_exists.mp hn
  rw [signBinary, SignArgs.valid_of h hv hn, Out.ok_bind] at hs
  simp only [Bool.not_true, Bool.false_eq_true, if_false] at hs
  rw [h.signerOf, Out.ok_bind] at hs
  dsimp only at hs
  obtain ⟨kid, hkid, hs⟩ := Out.bind_eq_ok.mp hs
  rw [Tag4.checkKeyid, if_neg (by simp [keyid_length cr hcr hkid]), Out.ok_bind] at hs
  obtain ⟨r, hr, hs⟩ := Out.bind_eq_ok.mp hs
  obtain ⟨i, vals, n', hi, hn', rfl, hsh⟩ := makeSig_ok hcr h rfl hr
  dsimp only at hs
  rw [compressSigned, if_pos rfl] at hs
  obtain rfl := Out.ok.inj hs
  obtain ⟨pub', hpub', -, hpm, hsz, ⟨kp, hsk, hmpi, hkk⟩, -⟩ := h.public
  rw [hpub] at hpub'
  obtain rfl := Out.ok.inj hpub'
  refine ⟨?_, _, _, rfl⟩
  refine verifyBinary_signed cr hcr z rawE readE depth' pub hsz hpm hsk none ⟨0x62, filename, now, data⟩ (by rw [hkk, hkid]) _ (i := i) ?_ ⟨⟨n', hn'⟩, hmpi ▸ hsh⟩
  exact hi

/-- Signed and compressed: when the packets can be read back (C06), the packet with the compressed octets too, and no line of it looks
like armor. -/
theorem C36_binary_compressed_partial (n : Nat) (cr : Crypto) (hcr : cr.Ok) (z : Zip) (depth depth' : Nat) (a : SignArgs (SigAt n))
    (before : List (Pkt (SigAt n))) (t : Tag5) (pri : List Nat) (h : CanSign cr a before t pri) (hv : a.version = 3 ∨ a.version = 4)
    (hn : (hashLen a.hash).isSome) (now : Nat) (draws : List Nat) (filename data : Bytes) (comp : UInt8) (hc : comp = 1 ∨ comp = 2 ∨ comp = 3)
    (m0 m : Msg (SigAt n)) (pub : KeyObj (SigAt n)) (hpub : a.pri.getPublic = .ok pub)
    (h0 : signBinary cr z (rawAt n) (readSigAt n) depth a now draws filename data 0 = .ok m0)
    (hs : signBinary cr z (rawAt n) (readSigAt n) depth a now draws filename data comp = .ok m)
    (hp : placed n 0 m0.packets) (hz : ∀ out, writeRaw (Pkt.write (rawAt n)) m0.packets = .ok out → z.Undoes comp out)
    (hfit : ∀ out d, writeRaw (Pkt.write (rawAt n)) m0.packets = .ok out → compress z comp out = .ok d → readableLen .new (1 + d.length) ∧
      ∀ l ∈ getlines (packetOctets .new 8 (comp :: d)), ¬ ascii "-----BEGIN PGP " <+: rtrim l) :
    m.packets = m0.packets ∧ verifyBinary cr z (rawAt n) (readSigAt n) (depth' + 1) pub m = .ok .yes := by
  obtain ⟨hv0, o, s, rfl⟩ := C36_binary cr hcr z (rawAt n) (readSigAt n) depth depth' a before t pri h hv hn now draws filename data m0 pub hpub h0
  obtain ⟨L, hn⟩ := Option.isSome_iff_exists.mp hn
  rw [signBinary, SignArgs.valid_of h hv hn, Out.ok_bind] at hs h0
  simp only [Bool.not_true, Bool.false_eq_true, if_false] at hs h0
  rw [h.signerOf, Out.ok_bind] at hs h0
  dsimp only at hs h0
  obtain ⟨kid, hkid, hs⟩ := Out.bind_eq_ok.mp hs
  rw [hkid, Out.ok_bind] at h0
  rw [Tag4.checkKeyid, if_neg (by simp [keyid_length cr hcr hkid]), Out.ok_bind] at hs h0
  obtain ⟨r, hr, hs⟩ := Out.bind_eq_ok.mp hs
  rw [hr, Out.ok_bind] at h0
  obtain ⟨i, vals, n', hi, hn', rfl, hsh⟩ := makeSig_ok hcr h rfl hr
  dsimp only at hs h0
  rw [compressSigned, if_pos rfl] at h0
  have h0 := Out.ok.inj h0
  rw [h0] at hs
  obtain ⟨out, hw, hread⟩ := C06_packets_partial n _ hp
  have hle : comp ≤ 3 := by rcases hc with rfl | rfl | rfl <;> decide
  obtain ⟨d, hd1, hd2⟩ := decompress_compress hle out (fun _ _ => hz out hw)
  obtain ⟨hfl, harm⟩ := hfit out d hw hd1
  have hraw : Body.raw (rawAt n) (.compressed comp d) = .ok (comp :: d) := rfl
  have hwr : Pkt.write (rawAt n) ⟨.new, false, .compressed comp d⟩ = .ok (packetOctets .new 8 (comp :: d)) :=
    write_eq (rawAt n) .new (.compressed comp d) hraw (by simp [validTag, Body.tag])
  have hrd : readRaw (Pkt.parse (readSigAt n)) (packetOctets .new 8 (comp :: d)) = .ok [⟨.new, false, .compressed comp d⟩] :=
    readRaw_single (readSigAt n) (rawAt n) .new (.compressed comp d) (by trivial) hraw ⟨by simp [validTag, Body.tag], rfl, by
      rw [List.length_cons, Nat.add_comm]; exact hfl⟩
  have hpr := (C15_binary (Pkt.parse (readSigAt n)) ⟨false, 0, [], [⟨.new, false, .compressed comp d⟩]⟩ _ harm hrd).2
  rw [compressSigned, if_neg (by rcases hc with rfl | rfl | rfl <;> decide), Msg.raw, hw, Out.ok_bind] at hs
  simp only [Out.pure_eq, Out.ok_bind, hd1, hwr] at hs
  rw [Msg.ofString, hpr, Out.ok_bind] at hs
  have h8 : messageMeaningful [8] = .ok true := by decide
  have h42 : messageMeaningful [4, 11, 2] = .ok true := by decide
  simp only [List.map_cons, List.map_nil, Body.tag, h8, Out.ok_bind, Bool.not_true, Bool.false_eq_true, if_false, hd2] at hs
  cases depth with
  | zero => rw [Msg.readLoop] at hs; exact absurd hs (by simp)
  | succ depth =>
    rw [Msg.readLoop, hread, Out.ok_bind] at hs
    simp only [List.map_cons, List.map_nil, Body.tag, h42, Out.ok_bind, Bool.not_true, Bool.false_eq_true, if_false] at hs
    obtain rfl := Out.ok.inj hs
    refine ⟨rfl, ?_⟩
    have h0p := congrArg Msg.packets h0
    simp only [List.cons.injEq, Pkt.mk.injEq, true_and, and_true, Body.onePass.injEq, Body.sig.injEq] at h0p
    obtain ⟨rfl, rfl⟩ := h0p
    obtain ⟨pub', hpub', -, hpm, hsz, ⟨kp, hsk, hmpi, hkk⟩, -⟩ := h.public
    rw [hpub] at hpub'
    obtain rfl := Out.ok.inj hpub'
    refine verifyBinary_signed cr hcr z (rawAt n) (readSigAt n) depth' pub hsz hpm hsk _ ⟨0x62, filename, now, data⟩ (by rw [hkk, hkid]) _ (i := i) ?_ ⟨⟨n', hn'⟩, hmpi ▸ hsh⟩
    exact hi

/-! ### Certifications and bindings -/

theorem findUser_spec (user : Bytes) : ∀ {ps before behind : List (Pkt E)} {id : Body E}, findUser user ps = some (before, id, behind) →
    ∃ pre p u, before = pre ++ [p] ∧ p.body = id ∧ id = .userId u ∧ containsBytes user u = true ∧ ps = before ++ behind
  | [], _, _, _, h => by simp [findUser] at h
  | p :: ps, before, behind, id, h => by
    have step : (findUser user ps).map (fun r => (p :: r.1, r.2)) = some (before, id, behind) →
        ∃ pre q u, before = pre ++ [q] ∧ q.body = id ∧ id = .userId u ∧ containsBytes user u = true ∧ p :: ps = before ++ behind := by
      intro hm
      obtain ⟨⟨b', id', be'⟩, hr, he⟩ := Option.map_eq_some_iff.mp hm
      simp only [Prod.mk.injEq] at he
      obtain ⟨rfl, rfl, rfl⟩ := he
      obtain ⟨pre, q, u, rfl, h1, h2, h3, rfl⟩ := findUser_spec user hr
      exact ⟨p :: pre, q, u, rfl, h1, h2, h3, rfl⟩
    rw [findUser] at h
    split at h
    · rename_i u hb
      split at h
      · rename_i hc
        obtain ⟨rfl, he⟩ := Prod.mk.inj (Option.some.inj h)
        obtain ⟨rfl, rfl⟩ := Prod.mk.inj he
        exact ⟨[], p, u, rfl, rfl, hb, hc, rfl⟩
      · exact step h
    · exact step h

theorem earlierCerts_none {cr : Crypto} {rawE : E → Bytes} {signer key : KeyPkt} {id : Body E} : ∀ {ps sigs rest : List (Pkt E)},
    earlierCerts cr rawE signer key id ps = .ok (.none sigs rest) → ps = sigs ++ rest ∧ (∀ p ∈ sigs, IsSig p.body) ∧
      ∀ p, rest.head? = some p → ¬ IsSig p.body
  | [], sigs, rest, h => by
    rw [earlierCerts] at h
    cases Out.ok.inj h
    simp
  | p :: ps, sigs, rest, h => by
    rw [earlierCerts] at h
    split at h
    · rename_i s hb
      obtain ⟨v, hv, h⟩ := Out.bind_eq_ok.mp h
      cases v with
      | error => exact absurd (Out.ok.inj h) (by simp)
      | yes => exact absurd (Out.ok.inj h) (by simp)
      | no =>
        dsimp only at h
        obtain ⟨r, hr, h⟩ := Out.bind_eq_ok.mp h
        cases r with
        | failed => exact absurd (Out.ok.inj h) (by simp)
        | already => exact absurd (Out.ok.inj h) (by simp)
        | none sigs' rest' =>
          cases Out.ok.inj h
          obtain ⟨rfl, h1, h2⟩ := earlierCerts_none hr
          refine ⟨rfl, ?_, h2⟩
          intro q hq
          rcases List.mem_cons.mp hq with rfl | hq
          · exact ⟨s, hb⟩
          · exact h1 q hq
    · rename_i hb
      cases Out.ok.inj h
      refine ⟨rfl, by simp, ?_⟩
      intro q hq
      obtain rfl := Option.some.inj hq
      rintro ⟨s, hs⟩
      exact hb s hs

theorem earlierCerts_already {cr : Crypto} {rawE : E → Bytes} {signer key : KeyPkt} {id : Body E} : ∀ {ps : List (Pkt E)},
    earlierCerts cr rawE signer key id ps = .ok .already → ∃ sigs p s rest, ps = sigs ++ p :: rest ∧ (∀ p ∈ sigs, IsSig p.body) ∧
      p.body = .sig s ∧ verifyCertification cr rawE signer key id s = .ok .yes
  | [], h => by
    rw [earlierCerts] at h
    cases Out.ok.inj h
  | p :: ps, h => by
    rw [earlierCerts] at h
    split at h
    · rename_i s hb
      obtain ⟨v, hv, h⟩ := Out.bind_eq_ok.mp h
      cases v with
      | error => exact absurd (Out.ok.inj h) (by simp)
      | yes => exact ⟨[], p, s, ps, rfl, by simp, hb, hv⟩
      | no =>
        dsimp only at h
        obtain ⟨r, hr, h⟩ := Out.bind_eq_ok.mp h
        cases r with
        | failed => exact absurd (Out.ok.inj h) (by simp)
        | none sigs' rest' => exact absurd (Out.ok.inj h) (by simp)
        | already =>
          obtain ⟨sigs, q, s', rest, rfl, h1, h2, h3⟩ := earlierCerts_already hr
          refine ⟨p :: sigs, q, s', rest, rfl, ?_, h2, h3⟩
          intro x hx
          rcases List.mem_cons.mp hx with rfl | hx
          · exact ⟨s, hb⟩
          · exact h1 x hx
    · exact absurd (Out.ok.inj h) (by simp)

/-- The signature packets name a key, but not `kid`. -/
def Foreign (kid : Bytes) (bs : List (Body E)) : Prop := ∀ s : Tag2 E, .sig s ∈ bs → ∃ k, s.getKeyid = .ok k ∧ k ≠ kid

theorem verifyCertification_foreign {cr : Crypto} {rawE : E → Bytes} {kp key : KeyPkt} {kid : Bytes} (hk : kp.keyid cr = .ok kid) {id : Body E}
    {s : Tag2 E} {k : Bytes} (hs : s.getKeyid = .ok k) (hne : k ≠ kid) : verifyCertification cr rawE kp key id s = .ok .no := by
  rw [verifyCertification, hk, Out.ok_bind, hs, Out.ok_bind, if_pos (Ne.symm hne)]
  rfl

theorem certifiedLoop_foreign {cr : Crypto} {rawE : E → Bytes} {kp : KeyPkt} {kid : Bytes} (hk : kp.keyid cr = .ok kid) (rest : List (Body E)) :
    ∀ (l : List (Body E)) (key : KeyPkt) (id : Option (Body E)), Foreign kid l → (∀ b ∈ l, b.tag ≠ 5 ∧ b.tag ≠ 6) →
    ∃ id', certifiedLoop cr rawE kp (some key) id (l ++ rest) = certifiedLoop cr rawE kp (some key) id' rest ∧ ((∀ b ∈ l, IsSig b) → id' = id)
  | [], _, id, _, _ => ⟨id, rfl, fun _ => rfl⟩
  | b :: l, key, id, hf, ht => by
    have hf' : Foreign kid l := fun s hs => hf s (by simp [hs])
    have ht' : ∀ b ∈ l, b.tag ≠ 5 ∧ b.tag ≠ 6 := fun b hb => ht b (by simp [hb])
    have hb := ht b (by simp)
    rw [List.cons_append]
    conv in certifiedLoop _ _ _ _ _ (_ :: _) => unfold certifiedLoop
    rw [if_neg (by simp [hb])]
    split
    · rename_i hu
      obtain ⟨id', h1, -⟩ := certifiedLoop_foreign (rawE := rawE) hk rest l key (some b) hf' ht'
      refine ⟨id', h1, fun hs => absurd (hs b (by simp)) (not_isSig_of_tag (by omega))⟩
    · obtain ⟨id', h1, h2⟩ := certifiedLoop_foreign (rawE := rawE) hk rest l key id hf' ht'
      refine ⟨id', ?_, fun hs => h2 fun x hx => hs x (by simp [hx])⟩
      split
      · rename_i s _
        obtain ⟨k, hs, hne⟩ := hf s (by simp)
        cases id with
        | none =>
          simp only [hk, hs, Out.ok_bind, if_pos (Ne.symm hne), Out.pure_eq]
          exact h1
        | some i =>
          simp only [verifyCertification_foreign hk hs hne, Out.ok_bind]
          exact h1
      · exact h1

theorem transferable_tail_tags {strict : Bool} {key subkey : Nat} (hk : subkey ≠ 5 ∧ subkey ≠ 6) {p : Body E} {l : List (Body E)}
    (h : TransferableKey strict key subkey (p :: l)) : ∀ b ∈ l, b.tag ≠ 5 ∧ b.tag ≠ 6 := by
  obtain ⟨p', revs, users, subkeys, e, -, hr, hu, -, hsub, -⟩ := h
  obtain ⟨-, rfl⟩ := List.cons.inj e
  have hsig : ∀ {b : Body E}, IsSig b → b.tag ≠ 5 ∧ b.tag ≠ 6 := by
    rintro b ⟨s, rfl⟩
    exact ⟨by simp [Body.tag], by simp [Body.tag]⟩
  intro b hb
  rcases List.mem_append.mp hb with hb | hb
  · rcases List.mem_append.mp hb with hb | hb
    · obtain ⟨s, hs, -⟩ := hr b hb
      exact hsig ⟨s, hs⟩
    · obtain ⟨g, hg, hbg⟩ := List.mem_flatten.mp hb
      obtain ⟨c, sigs, rfl, ht, hs⟩ := userBlock_split (hu g hg)
      rcases List.mem_cons.mp hbg with rfl | hbg
      · omega
      · exact hsig (hs b hbg)
  · obtain ⟨g, hg, hbg⟩ := List.mem_flatten.mp hb
    obtain ⟨c, sigs, rfl, ht, hs⟩ := subkeyBlock_split (hsub g hg)
    rcases List.mem_cons.mp hbg with rfl | hbg
    · omega
    · exact hsig (hs b hbg)

theorem verifyCertification_of_good {cr : Crypto} (hcr : cr.Ok) {rawE : E → Bytes} {kp key : KeyPkt}
    (hs : ∀ n, kp.mpi[0]? = some n → n.log2 < 2 ^ 32) {id : Body E} {s : Tag2 E} {kid i : Bytes} (h1 : kp.keyid cr = .ok kid)
    (h2 : s.getKeyid = .ok kid) (hi : signCertInput rawE s.type key id s = .ok i) (hg : GoodValues cr kp s i) :
    verifyCertification cr rawE kp key id s = .ok .yes := by
  rw [verifyCertification, h1, Out.ok_bind, h2, Out.ok_bind, if_neg (by simp)]
  exact (verifyWith_iff cr hcr hs s _).mpr ⟨i, hi, hg⟩

/-- Certifying a key puts a signature behind the user ID found and its signatures, keeping everything else; the new signature verifies
for the signer's public key, the result is a well-formed key, and, if no other signature of it names the signer, the key as a whole is
reported as certified. A key that had such a signature already is returned unchanged. -/
theorem C36_certification (cr : Crypto) (hcr : cr.Ok) (rawE : E → Bytes) (a : SignArgs E) (before : List (Pkt E)) (t : Tag5) (pri : List Nat)
    (h : CanSign cr a before t pri) (hv : a.version = 4) (now : Nat) (draws : List Nat) (signee : KeyObj E)
    (user : Bytes) (cert : UInt8) (result pub : KeyObj E) (hpub : a.pri.getPublic = .ok pub) (hown : ∃ own, pub.keyid cr = .ok own ∧ own ≠ [])
    (hs : signPrimaryKey cr rawE a now draws signee user cert = .ok result) (hne : result.packets ≠ []) :
    ∃ p0 pre pu u key behind, signee.packets = p0 :: (pre ++ pu :: behind) ∧ p0.body.keyPart = some key ∧ pu.body = .userId u ∧
      containsBytes user u = true ∧ ∃ kp, SigningKey pub kp ∧
      ((result = signee ∧ ∃ sigs p s rest, behind = sigs ++ p :: rest ∧ (∀ p ∈ sigs, IsSig p.body) ∧ p.body = .sig s ∧
          verifyCertification cr rawE kp key pu.body s = .ok .yes) ∨
       ∃ sigs rest s, behind = sigs ++ rest ∧ (∀ p ∈ sigs, IsSig p.body) ∧ (∀ p, rest.head? = some p → ¬ IsSig p.body) ∧
        result = ⟨.pub, p0 :: (pre ++ pu :: (sigs ++ ⟨.new, false, .sig s⟩ :: rest))⟩ ∧ s.type = cert ∧ result.meaningful = .ok true ∧
        verifyCertification cr rawE kp key pu.body s = .ok .yes ∧
        ∀ kid, kp.keyid cr = .ok kid → Foreign kid ((p0 :: (pre ++ pu :: sigs)).map (·.body)) → verifyPrimaryKey cr rawE pub result = .ok .yes) := by
  obtain ⟨pub', hpub', hpk, hpm, hsz, ⟨kp, hsk, hmpi, hkk⟩, -⟩ := h.public
  rw [hpub] at hpub'
  obtain rfl := Out.ok.inj hpub'
  have nope : ∀ {x : KeyObj E}, (pure noPublicKey : Out (KeyObj E)) = .ok x → x.packets = [] := by
    intro x hx
    cases Out.ok.inj hx
    rfl
  rw [signPrimaryKey] at hs
  obtain ⟨v, -, hs⟩ := Out.bind_eq_ok.mp hs
  split at hs
  · exact absurd (nope hs) hne
  obtain ⟨r1, -, hs⟩ := Out.bind_eq_ok.mp hs
  cases r1 with
  | yes => exact absurd (nope hs) hne
  | error => exact absurd (nope hs) hne
  | no =>
    dsimp only at hs
    obtain ⟨good, hgood, hs⟩ := Out.bind_eq_ok.mp hs
    cases good with
    | false => exact absurd (nope hs) hne
    | true =>
      simp only [Bool.not_true, Bool.false_eq_true, if_false] at hs
      obtain ⟨r2, -, hs⟩ := Out.bind_eq_ok.mp hs
      cases r2 with
      | yes => exact absurd (nope hs) hne
      | error => exact absurd (nope hs) hne
      | no =>
        dsimp only at hs
        split at hs
        · exact absurd (nope hs) hne
        rename_i hcert
        have hcert : isCertification cert = true := by simpa using hcert
        rw [h.signerOf, Out.ok_bind] at hs
        dsimp only at hs
        obtain ⟨hkind, hsm⟩ : signee.kind = .pub ∧ signee.meaningful = .ok true := by
          split at hgood
          · exact absurd (Out.ok.inj hgood) (by decide)
          · rename_i hk; exact ⟨not_not.mp hk, hgood⟩
        cases hp : signee.packets with
        | nil => rw [hp] at hs; exact absurd hs (by simp)
        | cons p0 ps =>
          rw [hp] at hs
          dsimp only at hs
          cases hk0 : p0.body.keyPart with
          | none => rw [hk0] at hs; exact absurd hs (by simp)
          | some key =>
            rw [hk0] at hs
            dsimp only at hs
            cases hfu : findUser user ps with
            | none => rw [hfu] at hs; exact absurd (nope hs) hne
            | some r =>
              obtain ⟨bef, id, behind⟩ := r
              rw [hfu] at hs
              dsimp only at hs
              obtain ⟨pre, pu, u, rfl, rfl, hid, hcon, rfl⟩ := findUser_spec user hfu
              refine ⟨p0, pre, pu, u, key, behind, by simp, hk0, hid, hcon, kp, hsk, ?_⟩
              obtain ⟨ea, hea, hs'⟩ := Out.bind_eq_ok.mp hs
              have hvk : ∀ s, verifyCertification cr rawE t.key key pu.body s = verifyCertification cr rawE kp key pu.body s := by
                intro s
                rw [verifyCertification, verifyCertification, hkk]
                simp only [verifyWith, hmpi]
              cases ea with
              | failed => exact absurd (nope hs') hne
              | already =>
                cases Out.ok.inj hs'
                obtain ⟨sigs, p, s, rest, h1, h2, h3, h4⟩ := earlierCerts_already hea
                exact Or.inl ⟨rfl, sigs, p, s, rest, h1, h2, h3, by rw [← hvk]; exact h4⟩
              | none sigs rest =>
                dsimp only at hs'
                obtain ⟨kid, hkid, hs2⟩ := Out.bind_eq_ok.mp hs'
                obtain ⟨os, hos, hs3⟩ := Out.bind_eq_ok.mp hs2
                clear hs hs' hs2
                obtain ⟨rfl, hsigs, hrest⟩ := earlierCerts_none hea
                have hp0 : p0.body.tag = 6 := by
                  rw [KeyObj.meaningful, hkind, C30_meaningful_iff .pub 6 14 rfl, hp] at hsm
                  obtain ⟨p', _, _, _, e, ht, -⟩ := hsm
                  have e1 : p0.body = p' := (List.cons.inj e).1
                  rw [e1]
                  exact ht
                rw [signCertification, if_neg (by simp [hp0]), if_neg (by simp [createSig, hcert]), hk0] at hos
                dsimp only at hos
                obtain ⟨i, vals, n, hi, hn, rfl, hsh⟩ := makeSig_ok hcr h (sig := createSig a.version cert t.key.pka a.hash kid now) rfl
                  (input := signCertInput rawE cert key pu.body) hos
                set s : Tag2 E := { (createSig a.version cert t.key.pka a.hash kid now : Tag2 E) with left16 := (cr.hash a.hash i).take 2, mpi := vals } with hsd
                have hgv : GoodValues cr kp s i := ⟨⟨n, hn⟩, hmpi ▸ hsh⟩
                have hvc : verifyCertification cr rawE kp key pu.body s = .ok .yes :=
                  verifyCertification_of_good hcr (hsk.sized hsz) (hkk.trans hkid) (getKeyid_v4 _ hv kid rfl) hi hgv
                have hcertif : Certification (Body.sig s) := by
                  refine ⟨s, rfl, ?_⟩
                  have hst : s.type = cert := rfl
                  rcases isCertification_cases hcert with hc | hc | hc | hc <;> rw [hst, hc] <;> decide
                have hmean : (⟨.pub, p0 :: (pre ++ pu :: (sigs ++ ⟨.new, false, .sig s⟩ :: rest))⟩ : KeyObj E).meaningful = .ok true := by
                  rw [KeyObj.meaningful, hkind, C30_meaningful_iff .pub 6 14 rfl, hp] at hsm
                  rw [KeyObj.meaningful, C30_meaningful_iff .pub 6 14 rfl]
                  simp only [List.map_cons, List.map_append, hid, List.append_assoc, List.nil_append,
                    List.cons_append] at hsm ⊢
                  refine transferable_insert_user (by decide) hsm ?_ (Or.inl hcertif)
                  intro x hx
                  obtain ⟨q, hq, rfl⟩ := List.mem_map.mp hx
                  exact hsigs q hq
                have hres : result = ⟨.pub, p0 :: (pre ++ pu :: (sigs ++ ⟨.new, false, .sig s⟩ :: rest))⟩ := by
                  refine (Out.ok.inj hs3).symm.trans ?_
                  simp [hsd, createSig]
                refine Or.inr ⟨sigs, rest, s, rfl, hsigs, hrest, hres, rfl, by rw [hres]; exact hmean, hvc, ?_⟩
                intro kid' hkid' hfor
                rw [hres, verifyPrimaryKey, hpm, Out.ok_bind]
                simp only [Bool.not_true, Bool.false_eq_true, if_false]
                rw [hmean, Out.ok_bind]
                simp only [Bool.not_true, Bool.false_eq_true, if_false]
                obtain ⟨own, hown, hown'⟩ := hown
                rw [hown, Out.ok_bind, if_neg hown', (signingFields_iff hpm kp).mpr hsk, Out.ok_bind]
                dsimp only
                have htags : ∀ b ∈ (pre ++ pu :: sigs).map (·.body), b.tag ≠ 5 ∧ b.tag ≠ 6 := by
                  rw [KeyObj.meaningful, hkind, C30_meaningful_iff .pub 6 14 rfl, hp] at hsm
                  intro b hb
                  refine transferable_tail_tags (by decide) hsm b ?_
                  simp only [List.map_append, List.map_cons, List.map_nil, List.mem_append, List.mem_cons] at hb ⊢
                  tauto
                rw [List.map_cons, certifiedLoop, if_pos (Or.inr hp0), hk0, List.map_append]
                obtain ⟨id1, h1, -⟩ := certifiedLoop_foreign (rawE := rawE) hkid'
                  ((pu :: (sigs ++ ⟨.new, false, .sig s⟩ :: rest)).map (·.body)) (pre.map (·.body)) key none
                  (fun s hs => hfor s (by simp only [List.map_cons, List.map_append, List.mem_cons, List.mem_append]; tauto))
                  (fun b hb => htags b (by rw [List.map_append]; exact List.mem_append_left _ hb))
                rw [h1, List.map_cons, certifiedLoop, if_neg (by simp [hid, Body.tag]), if_pos (by simp [hid, Body.tag]), List.map_append]
                obtain ⟨id2, h2, h3⟩ := certifiedLoop_foreign (rawE := rawE) hkid' ((⟨.new, false, .sig s⟩ :: rest : List (Pkt E)).map (·.body))
                  (sigs.map (·.body)) key (some pu.body)
                  (fun s hs => hfor s (by simp only [List.map_cons, List.map_append, List.mem_cons, List.mem_append]; tauto))
                  (fun b hb => htags b (by
                    simp only [List.map_append, List.map_cons, List.mem_append, List.mem_cons]; tauto))
                rw [h2, h3 (by
                  intro x hx
                  obtain ⟨q, hq, rfl⟩ := List.mem_map.mp hx
                  exact hsigs q hq), List.map_cons, certifiedLoop, if_neg (by simp [Body.tag]), if_neg (by simp [Body.tag])]
                · simp only [hvc, Out.ok_bind]
                  rfl
                · intro s' hs'
                  rw [hid] at hs'
                  cases hs'
                · intro s' hs'
                  rw [hs'] at hp0
                  cases hp0

/-- A subkey binding made by the primary key satisfies the public-key equation for the prescribed content. (The library has no
function to verify bindings.) -/
theorem C36_subkey_binding (cr : Crypto) (hcr : cr.Ok) (rawE : E → Bytes) (a : SignArgs E) (t : Tag5) (pri : List Nat) (h : CanSign cr a [] t pri)
    (draws : List Nat) (sub : Tag5) (sig : Tag2 E) (hv : sig.version = 4) (ht : sig.type = 0x18) (hpka : sig.pka = t.key.pka) (r : Option (Tag2 E))
    (hs : signSubkeyBinding cr rawE draws t a.pass sub sig = .ok r) :
    ∃ s i, r = some s ∧ s.type = 0x18 ∧ s.hashed = sig.hashed ∧ Prescribed rawE (.binding t.key sub.key) s i ∧ GoodValues cr t.key s i ∧
      s.left16 = (cr.hash s.hash i).take 2 := by
  obtain ⟨i, vals, n, hi, hn, rfl, hsh⟩ := makeSig_ok hcr h (sig := sig) hpka (input := signBindingInput rawE t.key sub.key) hs
  refine ⟨_, i, rfl, ht, rfl, ?_, ⟨⟨n, hn⟩, hsh⟩, rfl⟩
  exact prescribed_of_input rawE (.binding t.key sub.key) _ (Or.inl ht) (by rw [show _ = _ from ht]; decide) (by simp) i hi (Or.inr hv)

end OpenPGP
