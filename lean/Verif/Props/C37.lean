import Verif.Lemmas.Verify
import Verif.Model.Sign
import Verif.Props.C29
import Verif.Props.C32
import Verif.Props.C27
import Verif.Props.C44

/-!
# C37: verification accepts only a matching signature
-/
namespace OpenPGP
open Rfc
variable {E : Type}

/-- The signing key of a key object: the key packet, primary or subkey, that comes first among those with a signing algorithm. -/
def SigningKey (k : KeyObj E) (kp : KeyPkt) : Prop :=
  ∃ before p after, k.packets = before ++ p :: after ∧ p.body.keyPart = some kp ∧ (kp.pka = 1 ∨ kp.pka = 3 ∨ kp.pka = 17) ∧
    ∀ q ∈ before, ∀ k', q.body.keyPart = some k' → ¬ (k'.pka = 1 ∨ k'.pka = 3 ∨ k'.pka = 17)

/-- What is hashed for a signature over the octets `content` (RFC 4880 5.2.4): version 4 with the hashed fields of the packet, version 3
with type and time. -/
def Hashed (rawE : E → Bytes) (content : Bytes) (s : Tag2 E) (i : Bytes) : Prop :=
  (s.version = 4 ∧ i = hashInput content (trailer s.type s.pka s.hash (writeSubpackets rawE s.hashed))) ∨
  (s.version = 3 ∧ i = content ++ ([s.type] ++ be 4 s.time))

/-- The signature packet names the key `id`, its hash algorithm is known, and its values satisfy the equation of its algorithm for
the public values of `kp` and the hash of `input`. -/
def GoodValues (cr : Crypto) (kp : KeyPkt) (s : Tag2 E) (input : Bytes) : Prop :=
  (∃ n, hashLen s.hash = some n) ∧ SignatureHolds s.hash s.pka (cr.hash s.hash input) kp.mpi s.mpi

/-- A good signature over a document: the key ID in the signature is that of the (primary) key, the signing key of the key made it for
the hash of `input`, and the two octets of the hash in the packet are right. -/
def GoodDocument (cr : Crypto) (k : KeyObj E) (s : Tag2 E) (input : Bytes) : Prop :=
  k.meaningful = .ok true ∧ (∃ id, id ≠ [] ∧ s.getKeyid = .ok id ∧ k.keyid cr = .ok id) ∧ s.left16 = (cr.hash s.hash input).take 2 ∧
    ∃ kp, SigningKey k kp ∧ GoodValues cr kp s input

/-- The numbers of the keys have less than 2^32 bits (those that can be read have at most 65528). -/
def KeyObj.Sized (k : KeyObj E) : Prop := ∀ p ∈ k.packets, ∀ kp, p.body.keyPart = some kp → ∀ n ∈ kp.mpi, n.log2 < 2 ^ 32

/-- An object with one packet, the signature `s`. -/
def IsDetached (sig : PgpObj (Pkt E)) (s : Tag2 E) : Prop := sig.type = 6 ∧ ∃ p, sig.packets = [p] ∧ p.body = .sig s

theorem canSign_iff (a : UInt8) : canSign a = true ↔ a = 1 ∨ a = 3 ∨ a = 17 := by simp [canSign, or_assoc]

theorem addtrailer_iff (rawE : E → Bytes) (content : Bytes) (s : Tag2 E) (i : Bytes) :
    addtrailer rawE content s = .ok i ↔ Hashed rawE content s i := by
  rw [Hashed]
  by_cases h4 : s.version = 4
  · rw [addtrailer_v4 rawE content s h4]
    have : s.version ≠ 3 := by rw [h4]; decide
    simp only [h4, true_and, Out.ok.injEq]
    constructor
    · intro h; exact Or.inl h.symm
    · rintro (h | ⟨h, -⟩)
      · exact h.symm
      · exact absurd h (by decide)
  · by_cases h3 : s.version = 3
    · rw [addtrailer_v3 rawE content s h3]
      simp only [h3, true_and, Out.ok.injEq]
      constructor
      · intro h; exact Or.inr h.symm
      · rintro (⟨h, -⟩ | h)
        · exact absurd h (by decide)
        · exact h.symm
    · simp only [h4, h3, false_and, or_self, iff_false]
      rw [addtrailer, Tag2.upToHashed, if_neg h3, if_neg h4]
      simp

theorem signingFields_iff {k : KeyObj E} (h : k.meaningful = .ok true) (kp : KeyPkt) :
    signingFields k = .ok (some kp) ↔ SigningKey k kp := by
  rw [signingFields, KeyObj.findSigningKey, h, Out.ok_bind]
  simp only [Bool.not_true, Bool.false_eq_true, if_false, Out.pure_eq, Out.ok_bind]
  rw [SigningKey]
  cases hf : k.packets.find? fun p => match p.body.keyPart with
    | some kp => canSign kp.pka
    | none => false with
  | none =>
    simp only [Out.ok.injEq, reduceCtorEq, false_iff]
    rintro ⟨before, p, after, hp, hk, hc, -⟩
    rw [List.find?_eq_none] at hf
    have := hf p (by rw [hp]; simp)
    rw [hk] at this
    exact this ((canSign_iff _).mpr hc)
  | some p =>
    rw [List.find?_eq_some_iff_append] at hf
    obtain ⟨hp, as, bs, hl, hb⟩ := hf
    cases hk : p.body.keyPart with
    | none => rw [hk] at hp; exact absurd hp (by simp)
    | some kp' =>
      rw [hk] at hp
      have hp := (canSign_iff _).mp hp
      simp only [hk, Out.ok.injEq, Option.some.injEq]
      have hb' : ∀ q ∈ as, ∀ k', q.body.keyPart = some k' → ¬ (k'.pka = 1 ∨ k'.pka = 3 ∨ k'.pka = 17) := by
        intro q hq k' hk' hc
        have := hb q hq
        rw [hk'] at this
        simp only [(canSign_iff _).mpr hc] at this
        exact absurd this (by decide)
      constructor
      · rintro rfl
        exact ⟨as, p, bs, hl, hk, hp, hb'⟩
      · rintro ⟨before, p', after, hp', hk', hc, hbe⟩
        -- both are the first
        rw [hl] at hp'
        rcases List.append_eq_append_iff.mp hp' with ⟨as', h1, h2⟩ | ⟨bs', h1, h2⟩
        · cases as' with
          | nil =>
            simp only [List.nil_append, List.cons.injEq] at h2
            rw [h2.1, hk'] at hk
            exact (Option.some.inj hk).symm
          | cons x as' =>
            simp only [List.cons_append, List.cons.injEq] at h2
            exact absurd hp (hbe p (by rw [h1, ← h2.1]; simp) kp' hk)
        · cases bs' with
          | nil =>
            simp only [List.nil_append, List.cons.injEq] at h2
            rw [← h2.1, hk'] at hk
            exact (Option.some.inj hk).symm
          | cons x bs' =>
            simp only [List.cons_append, List.cons.injEq] at h2
            exact absurd hc (hb' p' (by rw [h1, ← h2.1]; simp) kp hk')

theorem SigningKey.sized {k : KeyObj E} {kp : KeyPkt} (h : SigningKey k kp) (hs : k.Sized) :
    ∀ n, kp.mpi[0]? = some n → n.log2 < 2 ^ 32 := by
  obtain ⟨before, p, after, hp, hk, -⟩ := h
  intro n hn
  exact hs p (by rw [hp]; simp) kp hk n (List.mem_of_getElem? hn)

/-- Digest and equation. -/
theorem verifyWith_iff (cr : Crypto) (hcr : cr.Ok) {kp : KeyPkt} (hs : ∀ n, kp.mpi[0]? = some n → n.log2 < 2 ^ 32) (s : Tag2 E)
    (input : Out Bytes) :
    (digestOf cr s input >>= fun d => verifyWith d kp s) = .ok .yes ↔ ∃ i, input = .ok i ∧ GoodValues cr kp s i := by
  constructor
  · intro h
    obtain ⟨d, hd, h⟩ := Out.bind_eq_ok.mp h
    obtain ⟨i, hi, hd⟩ := Out.bind_eq_ok.mp hd
    rw [hashUse] at hd
    split at hd
    · rename_i hsome
      obtain ⟨n, hn⟩ := Option.isSome_iff_exists.mp hsome
      obtain rfl := Out.ok.inj hd
      refine ⟨i, hi, ⟨n, hn⟩, ?_⟩
      rw [verifyWith, verifyPka_iff (by rw [hn, hcr.hash_len _ _ _ hn]) hs] at h
      exact h
    · exact absurd hd (by simp)
  · rintro ⟨i, rfl, ⟨n, hn⟩, h⟩
    rw [digestOf, Out.ok_bind, hashUse, if_pos (by rw [hn]; rfl), Out.ok_bind, verifyWith,
      verifyPka_iff (by rw [hn, hcr.hash_len _ _ _ hn]) hs]
    exact h

theorem detachedPacket_iff (sig : PgpObj (Pkt E)) (s : Tag2 E) : detachedPacket sig = .ok (some s) ↔ IsDetached sig s := by
  rw [detachedPacket, IsDetached]
  by_cases ht : sig.type = 6
  · simp only [ht, ne_eq, not_true, if_false, true_and]
    rcases hp : sig.packets with - | ⟨p, - | ⟨q, l⟩⟩
    · simp
    · simp only [List.cons.injEq, and_true, exists_eq_left']
      cases hb : p.body <;> simp
    · simp
  · simp [ht]

theorem verifyDocument_iff (cr : Crypto) (hcr : cr.Ok) (k : KeyObj E) (hk : k.Sized) (sig : PgpObj (Pkt E)) (mm : Verdict)
    (hmm : mm ≠ .yes) (input : Tag2 E → Out Bytes) :
    verifyDocument cr k sig mm input = .ok .yes ↔
      ∃ s i, IsDetached sig s ∧ input s = .ok i ∧ GoodDocument cr k s i := by
  constructor
  · intro h
    rw [verifyDocument] at h
    obtain ⟨good, hg, h⟩ := Out.bind_eq_ok.mp h
    cases good with
    | false => exact absurd (Out.ok.inj h) (by decide)
    | true =>
      simp only [Bool.not_true, Bool.false_eq_true, if_false] at h
      obtain ⟨o, ho, h⟩ := Out.bind_eq_ok.mp h
      cases o with
      | none => exact absurd (Out.ok.inj h) (by decide)
      | some s =>
        dsimp only at h
        obtain ⟨kid, hkid, h⟩ := Out.bind_eq_ok.mp h
        split at h
        · exact absurd (Out.ok.inj h) (by decide)
        rename_i hne
        obtain ⟨own, hown, h⟩ := Out.bind_eq_ok.mp h
        split at h
        · exact absurd (Out.ok.inj h) (by decide)
        rename_i heq
        have heq := not_not.mp heq
        obtain ⟨d, hd, h⟩ := Out.bind_eq_ok.mp h
        obtain ⟨l, hl, h⟩ := Out.bind_eq_ok.mp h
        split at h
        · exact absurd (Out.ok.inj h) hmm
        rename_i hleft
        obtain ⟨okp, hokp, h⟩ := Out.bind_eq_ok.mp h
        cases okp with
        | none => exact absurd (Out.ok.inj h) (by decide)
        | some kp =>
          dsimp only at h
          have hsk := (signingFields_iff hg kp).mp hokp
          obtain ⟨i, hi, hv⟩ := (verifyWith_iff cr hcr (hsk.sized hk) s (input s)).mp (by rw [hd, Out.ok_bind]; exact h)
          refine ⟨s, i, (detachedPacket_iff sig s).mp ho, hi, hg, ⟨kid, hne, hkid, heq ▸ hown⟩, ?_, kp, hsk, hv⟩
          obtain ⟨n, hn⟩ := hv.1
          rw [digestOf, hi, Out.ok_bind, hashUse, if_pos (by rw [hn]; rfl)] at hd
          have hd := Out.ok.inj hd
          rw [substr, if_neg (by omega)] at hl
          have hl := Out.ok.inj hl
          rw [← not_not.mp hleft, ← hl, hd]
          rfl
  · rintro ⟨s, i, hsig, hi, hg, ⟨id, hne, hkid, hown⟩, hleft, kp, hsk, hv⟩
    have h1 := (verifyWith_iff cr hcr (hsk.sized hk) s (input s)).mpr ⟨i, hi, hv⟩
    obtain ⟨n, hn⟩ := hv.1
    have hd : digestOf cr s (input s) = .ok (cr.hash s.hash i) := by
      rw [digestOf, hi, Out.ok_bind, hashUse, if_pos (by rw [hn]; rfl)]
    rw [hd, Out.ok_bind] at h1
    rw [verifyDocument, hg, Out.ok_bind]
    simp only [Bool.not_true, Bool.false_eq_true, if_false]
    rw [(detachedPacket_iff sig s).mpr hsig, Out.ok_bind]
    dsimp only
    rw [hkid, Out.ok_bind, if_neg hne, hown, Out.ok_bind, if_neg (by simp), hd, Out.ok_bind, substr, if_neg (by omega), Out.ok_bind,
      if_neg (by rw [hleft]; simp), (signingFields_iff hg kp).mpr hsk, Out.ok_bind]
    exact h1

/-- A detached signature verifies exactly when the object holds one signature packet, its key ID is the key's, and its values are
right for the hash of exactly these data and its own hashed fields. -/
theorem C37_detached (cr : Crypto) (hcr : cr.Ok) (rawE : E → Bytes) (k : KeyObj E) (hk : k.Sized) (data : Bytes) (sig : PgpObj (Pkt E)) :
    verifyDetached cr rawE k data sig = .ok .yes ↔
      ∃ s i, IsDetached sig s ∧ Hashed rawE data s i ∧ GoodDocument cr k s i := by
  rw [verifyDetached, verifyDocument_iff cr hcr k hk sig .no (by decide)]
  simp only [sign00Input, addtrailer_iff]

/-- A cleartext signature verifies exactly when this holds for the lines of the text without blanks at their ends, joined by CR LF. -/
theorem C37_cleartext (cr : Crypto) (hcr : cr.Ok) (rawE : E → Bytes) (k : KeyObj E) (hk : k.Sized) (m : Cleartext (Pkt E)) :
    verifyCleartext cr rawE k m = .ok .yes ↔
      ∃ s i, IsDetached m.sig s ∧ Hashed rawE (joinCrlf (textLines (dataToText m.message))) s i ∧ GoodDocument cr k s i := by
  rw [verifyCleartext, verifyDocument_iff cr hcr k hk m.sig .error (by decide)]
  simp only [sign01Input, addtrailer_iff, canonicalBody_eq]

/-- A timestamp verifies exactly when its type is 0x40 and its values are right for the hash of its own hashed fields. -/
theorem C37_timestamp (cr : Crypto) (hcr : cr.Ok) (rawE : E → Bytes) (k : KeyObj E) (hk : k.Sized) (sig : PgpObj (Pkt E)) :
    verifyTimestamp cr rawE k sig = .ok .yes ↔
      ∃ s i, IsDetached sig s ∧ s.type = 0x40 ∧ Hashed rawE [] s i ∧ GoodDocument cr k s i := by
  rw [verifyTimestamp, verifyDocument_iff cr hcr k hk sig .no (by decide)]
  constructor
  · rintro ⟨s, i, h1, h2, h3⟩
    rw [sign40Input] at h2
    split at h2
    · exact absurd h2 (by simp)
    · rename_i ht
      exact ⟨s, i, h1, not_not.mp ht, (addtrailer_iff _ _ _ _).mp h2, h3⟩
  · rintro ⟨s, i, h1, ht, h2, h3⟩
    refine ⟨s, i, h1, ?_, h3⟩
    rw [sign40Input, if_neg (by simp [ht])]
    exact (addtrailer_iff _ _ _ _).mpr h2

/-! ### Signed messages -/

/-- The octets signed in a one-pass signed message: the data of literal packets, the bodies of others. -/
def SignedContent (rawE : E → Bytes) (ps : List (Pkt E)) (data : Bytes) : Prop :=
  ∃ parts, List.Forall₂ (fun p c => (∃ t, p.body = .literal t ∧ c = t.literal) ∨ ((∀ t, p.body ≠ .literal t) ∧ p.body.raw rawE = .ok c)) ps parts ∧
    data = parts.flatten

theorem signedOctets_spec (rawE : E → Bytes) : ∀ {ps : List (Pkt E)} {data : Bytes}, signedOctets rawE ps = .ok data → SignedContent rawE ps data
  | [], data, h => ⟨[], .nil, by rw [signedOctets] at h; exact (Out.ok.inj h).symm⟩
  | p :: ps, data, h => by
    rw [signedOctets] at h
    cases hb : p.body with
    | literal t =>
      rw [hb] at h
      dsimp only at h
      rw [Out.ok_bind] at h
      obtain ⟨r, hr, h⟩ := Out.bind_eq_ok.mp h
      obtain ⟨parts, hp, rfl⟩ := signedOctets_spec rawE hr
      exact ⟨t.literal :: parts, .cons (Or.inl ⟨t, hb, rfl⟩) hp, (Out.ok.inj h).symm⟩
    | _ =>
      rw [hb] at h
      dsimp only at h
      obtain ⟨a, ha, h⟩ := Out.bind_eq_ok.mp h
      obtain ⟨r, hr, h⟩ := Out.bind_eq_ok.mp h
      obtain ⟨parts, hp, rfl⟩ := signedOctets_spec rawE hr
      exact ⟨a :: parts, .cons (Or.inr ⟨(by intro t ht; rw [hb] at ht; injection ht), (by rw [hb]; exact ha)⟩) hp, (Out.ok.inj h).symm⟩

/-- The packet sequence holds a one-pass signature packet and, in the mirrored place counted from the end, a good signature of the key
`kp`, whose key ID is in the one-pass packet, over everything between the last one-pass packet and this signature. -/
def SignedBy (cr : Crypto) (rawE : E → Bytes) (kp : KeyPkt) (packets : List (Pkt E)) : Prop :=
  ∃ ops mid sigs j o s data inp, packets = ops ++ mid ++ sigs ∧ (∀ p ∈ ops, p.body.tag = 4) ∧ (∀ p, mid.head? = some p → p.body.tag ≠ 4) ∧
    (∃ p, ops[j]? = some p ∧ p.body = .onePass o) ∧ kp.keyid cr = .ok o.keyid ∧
    (∃ p, sigs.head? = some p ∧ p.body = .sig s) ∧ sigs.length = j + 1 ∧
    SignedContent rawE mid data ∧ Hashed rawE data s inp ∧ GoodValues cr kp s inp

theorem pairLoop_yes (cr : Crypto) (hcr : cr.Ok) (rawE : E → Bytes) {kp : KeyPkt} (hs : ∀ n, kp.mpi[0]? = some n → n.log2 < 2 ^ 32)
    (packets : List (Pkt E)) (first : Nat) : ∀ n, pairLoop cr rawE kp packets first n = .ok .yes →
    ∃ j o s data inp, j < n ∧ (∃ p, packets[j]? = some p ∧ p.body = .onePass o) ∧ kp.keyid cr = .ok o.keyid ∧
      (∃ p, packets[packets.length - (j + 1)]? = some p ∧ p.body = .sig s) ∧
      SignedContent rawE ((packets.take (packets.length - (j + 1))).drop first) data ∧ Hashed rawE data s inp ∧ GoodValues cr kp s inp
  | 0, h => by rw [pairLoop] at h; exact absurd (Out.ok.inj h) (by decide)
  | n + 1, h => by
    have later : pairLoop cr rawE kp packets first n = .ok .yes → ∃ j o s data inp, j < n + 1 ∧ (∃ p, packets[j]? = some p ∧ p.body = .onePass o) ∧ kp.keyid cr = .ok o.keyid ∧
      (∃ p, packets[packets.length - (j + 1)]? = some p ∧ p.body = .sig s) ∧
      SignedContent rawE ((packets.take (packets.length - (j + 1))).drop first) data ∧ Hashed rawE data s inp ∧ GoodValues cr kp s inp := by
      intro h
      obtain ⟨j, o, s, data, inp, hj, hr⟩ := pairLoop_yes cr hcr rawE hs packets first n h
      exact ⟨j, o, s, data, inp, by omega, hr⟩
    unfold pairLoop at h
    obtain ⟨p, hp, h⟩ := Out.bind_eq_ok.mp h
    have hp := vecAt_eq_ok.mp hp
    cases hb : p.body with
    | onePass o =>
      rw [hb] at h
      dsimp only at h
      obtain ⟨kid, hkid, h⟩ := Out.bind_eq_ok.mp h
      split at h
      · rename_i heq
        obtain ⟨data, hdata, h⟩ := Out.bind_eq_ok.mp h
        obtain ⟨q, hq, h⟩ := Out.bind_eq_ok.mp h
        have hq := vecAt_eq_ok.mp hq
        cases hqb : q.body with
        | sig s =>
          rw [hqb] at h
          dsimp only at h
          obtain ⟨d, hd, h⟩ := Out.bind_eq_ok.mp h
          obtain ⟨v, hv, h⟩ := Out.bind_eq_ok.mp h
          cases v with
          | error => exact absurd (Out.ok.inj h) (by decide)
          | no => exact later h
          | yes =>
            obtain ⟨i, hi, hg⟩ := (verifyWith_iff cr hcr hs s (sign00Input rawE data s)).mp (by rw [hd, Out.ok_bind]; exact hv)
            exact ⟨n, o, s, data, i, by omega, ⟨p, hp, hb⟩, heq ▸ hkid, ⟨q, hq, hqb⟩, signedOctets_spec rawE hdata,
              (addtrailer_iff _ _ _ _).mp hi, hg⟩
        | _ => rw [hqb] at h; exact absurd h (by simp)
      · exact later h
    | _ => rw [hb] at h; exact absurd h (by simp)

theorem verifySigned_yes (cr : Crypto) (hcr : cr.Ok) (rawE : E → Bytes) (k : KeyObj E) (hk : k.Sized) (hm : k.meaningful = .ok true)
    (packets : List (Pkt E)) (h : verifySigned cr rawE k packets = .ok .yes) : ∃ kp, SigningKey k kp ∧ SignedBy cr rawE kp packets := by
  rw [verifySigned] at h
  split at h
  · obtain ⟨okp, hokp, h⟩ := Out.bind_eq_ok.mp h
    cases okp with
    | none => exact absurd (Out.ok.inj h) (by decide)
    | some kp =>
      have hsk := (signingFields_iff hm kp).mp hokp
      dsimp only at h
      split at h
      · exact absurd (Out.ok.inj h) (by decide)
      rename_i hn
      split at h
      · exact absurd (Out.ok.inj h) (by decide)
      rename_i hn2
      refine ⟨kp, hsk, ?_⟩
      obtain ⟨j, o, s, data, inp, hj, ⟨p, hp, hpb⟩, hkid, ⟨q, hq, hqb⟩, hc, hh, hg⟩ := pairLoop_yes cr hcr rawE (hsk.sized hk) packets _ _ h
      set n := (packets.takeWhile fun p => p.body.tag == 4).length with hnd
      have hle : n ≤ packets.length := by rw [hnd]; exact List.IsPrefix.length_le (List.takeWhile_prefix _)
      have htake : packets.take n = packets.takeWhile fun p => p.body.tag == 4 := by
        rw [hnd]
        exact (List.prefix_iff_eq_take.mp (List.takeWhile_prefix _)).symm
      have hqt : ∀ i r, packets[i]? = some r → i < n → r.body.tag = 4 := by
        intro i r hi hin
        have : r ∈ packets.take n := by
          rw [List.mem_iff_getElem?]
          exact ⟨i, by rw [List.getElem?_take_of_lt hin]; exact hi⟩
        rw [htake] at this
        simpa using List.mem_takeWhile_imp this
      have hj2 : n ≤ packets.length - (j + 1) := by
        by_contra hc'
        have := hqt _ q hq (by omega)
        rw [hqb] at this
        exact absurd (show (2 : Nat) = 4 from this) (by decide)
      have hjl : packets.length - (j + 1) < packets.length := (List.getElem?_eq_some_iff.mp hq).1
      refine ⟨packets.take n, (packets.take (packets.length - (j + 1))).drop n, packets.drop (packets.length - (j + 1)), j, o, s, data, inp,
        ?_, ?_, ?_, ⟨p, by rw [List.getElem?_take_of_lt hj]; exact hp, hpb⟩, hkid, ⟨q, by rw [List.head?_drop]; exact hq, hqb⟩, ?_, hc, hh, hg⟩
      · have h1 : packets.take n ++ (packets.take (packets.length - (j + 1))).drop n = packets.take (packets.length - (j + 1)) := by
          have := List.take_append_drop n (packets.take (packets.length - (j + 1)))
          rwa [List.take_take, Nat.min_eq_left hj2] at this
        rw [h1, List.take_append_drop]
      · intro r hr
        rw [htake] at hr
        simpa using List.mem_takeWhile_imp hr
      · intro r hr
        rw [List.head?_drop] at hr
        have hr' : packets[n]? = some r := by
          rw [List.getElem?_take] at hr
          split at hr
          · exact hr
          · exact absurd hr (by simp)
        intro ht
        have hdw : (packets.dropWhile fun p => p.body.tag == 4).head? = some r := by
          have := List.takeWhile_append_dropWhile (p := fun p : Pkt E => p.body.tag == 4) (l := packets)
          rw [← this, List.getElem?_append_right (by omega), ← hnd, Nat.sub_self] at hr'
          rw [List.head?_eq_getElem?]
          exact hr'
        have := List.head?_dropWhile_not (fun p : Pkt E => p.body.tag == 4) packets
        rw [hdw] at this
        simp [ht] at this
      · rw [List.length_drop]; omega
  · exact absurd (Out.ok.inj h) (by decide)

theorem literal_of_tag {b : Body E} (h : b.tag = 11) : ∃ t, b = .literal t := by
  cases b <;> first | exact ⟨_, rfl⟩ | (exfalso; simp [Body.tag] at h)
  exfalso; rename_i n s; change 60 + n = 11 at h; omega

/-- What a message holds behind its compressed packets. -/
inductive Opened (z : Zip) (readE : Bytes → Out E) : Msg E → Msg E → Prop
  | same (m) : Opened z readE m m
  | inner {m m' m'' : Msg E} {p alg d inner} (depth : Nat) : m.packets.head? = some p → p.body = .compressed alg d → decompress z alg d = .ok inner →
      Msg.ofString z readE depth inner = .ok m' → Opened z readE m' m'' → Opened z readE m m''

/-- A message verifies only if, behind its compression, it is a single literal packet (which is not signed at all), or it carries a
good signature of the signing key. -/
theorem C37_binary (cr : Crypto) (hcr : cr.Ok) (z : Zip) (rawE : E → Bytes) (readE : Bytes → Out E) (depth : Nat) (k : KeyObj E) (hk : k.Sized)
    (m : Msg E) (h : verifyBinary cr z rawE readE depth k m = .ok .yes) :
    k.meaningful = .ok true ∧ ∃ m', Opened z readE m m' ∧
      ((∃ p t, m'.packets = [p] ∧ p.body = .literal t) ∨ ∃ kp, SigningKey k kp ∧ SignedBy cr rawE kp m'.packets) := by
  induction depth generalizing m with
  | zero => exact absurd h (by simp [verifyBinary])
  | succ depth ih =>
    unfold verifyBinary at h
    obtain ⟨good, hg, h⟩ := Out.bind_eq_ok.mp h
    cases good with
    | false => exact absurd (Out.ok.inj h) (by decide)
    | true =>
      simp only [Bool.not_true, Bool.false_eq_true, if_false] at h
      refine ⟨hg, ?_⟩
      obtain ⟨good, hmg, h⟩ := Out.bind_eq_ok.mp h
      cases good with
      | false => exact absurd (Out.ok.inj h) (by decide)
      | true =>
        simp only [Bool.not_true, Bool.false_eq_true, if_false] at h
        obtain ⟨enc, henc, h⟩ := Out.bind_eq_ok.mp h
        split at h
        · exact absurd (Out.ok.inj h) (by decide)
        obtain ⟨sgn, hsgn, h⟩ := Out.bind_eq_ok.mp h
        split at h
        · exact ⟨m, .same m, Or.inr (verifySigned_yes cr hcr rawE k hk hg m.packets h)⟩
        obtain ⟨com, hcom, h⟩ := Out.bind_eq_ok.mp h
        split at h
        · split at h
          · rename_i f pa alg d ps hps
            obtain ⟨inner, hin, h⟩ := Out.bind_eq_ok.mp h
            obtain ⟨m', hm', h⟩ := Out.bind_eq_ok.mp h
            obtain ⟨-, m'', ho, hr⟩ := ih m' h
            exact ⟨m'', .inner depth (by rw [hps]; rfl) rfl hin hm' ho, hr⟩
          · exact absurd h (by simp)
        · obtain ⟨lit, hlit, h⟩ := Out.bind_eq_ok.mp h
          split at h
          · rename_i hl
            have hd := C29_accepts_only (X := .literal) rfl (hl ▸ hlit)
            refine ⟨m, .same m, Or.inl ?_⟩
            generalize ht : m.packets.map (·.body.tag) = tags at hd
            cases hd
            rcases hps : m.packets with - | ⟨p, - | ⟨q, l⟩⟩
            · rw [hps] at ht; exact absurd ht (by simp)
            · rw [hps] at ht
              obtain ⟨t, htb⟩ := literal_of_tag (by simpa using ht)
              exact ⟨p, t, rfl, htb⟩
            · rw [hps] at ht; exact absurd ht (by simp)
          · exact absurd (Out.ok.inj h) (by decide)

/-! ### Certifications and revocations -/

/-- The octets hashed for the signature `s` over `c`. -/
def Prescribed (rawE : E → Bytes) (c : Signed E) (s : Tag2 E) (i : Bytes) : Prop :=
  c.fits s.type ∧ ∃ o, ((s.version = 4 ∧ contentOctets rawE c = .ok o) ∨ (s.version = 3 ∧ contentOctets3 rawE c = .ok o)) ∧ Hashed rawE o s i

theorem prescribed_of_input (rawE : E → Bytes) (c : Signed E) (s : Tag2 E) (hf : c.fits s.type) (hn : s.type ≠ 2)
    (hid : ∀ k id, c = .user k id → id.tag = 13 ∨ id.tag = 17) (i : Bytes) :
    libraryInput rawE c s = .ok i → (s.version = 3 ∨ s.version = 4) → Prescribed rawE c s i := by
  intro h hv
  rcases hv with hv | hv
  · rw [C32_v3_prescribed rawE c s hv hf hn] at h
    obtain ⟨o, ho, h⟩ := Out.bind_eq_ok.mp h
    exact ⟨hf, o, Or.inr ⟨hv, ho⟩, Or.inr ⟨hv, (Out.ok.inj h).symm⟩⟩
  · rw [C32_prescribed rawE c s hv hf hid] at h
    obtain ⟨o, ho, h⟩ := Out.bind_eq_ok.mp h
    exact ⟨hf, o, Or.inl ⟨hv, ho⟩, Or.inl ⟨hv, (Out.ok.inj h).symm⟩⟩

theorem addtrailer_version {rawE : E → Bytes} {c : Bytes} {s : Tag2 E} {i : Bytes} (h : addtrailer rawE c s = .ok i) :
    s.version = 3 ∨ s.version = 4 := by
  rcases (addtrailer_iff rawE c s i).mp h with ⟨h, -⟩ | ⟨h, -⟩
  · exact Or.inr h
  · exact Or.inl h

theorem signUserInput_version {rawE : E → Bytes} {t : UInt8} {k : KeyPkt} {id : Body E} {s : Tag2 E} {i : Bytes}
    (h : signUserInput rawE t k id s = .ok i) : s.type = t ∧ (s.version = 3 ∨ s.version = 4) := by
  rw [signUserInput] at h
  split at h
  · exact absurd h (by simp)
  · rename_i ht
    obtain ⟨c, -, h⟩ := Out.bind_eq_ok.mp h
    exact ⟨not_not.mp ht, addtrailer_version h⟩

theorem isCertification_cases {t : UInt8} (h : isCertification t = true) : t = 0x10 ∨ t = 0x11 ∨ t = 0x12 ∨ t = 0x13 := by
  simpa [isCertification, or_assoc] using h

theorem signCertInput_prescribed {rawE : E → Bytes} {k : KeyPkt} {id : Body E} {s : Tag2 E} {i : Bytes} (hid : id.tag = 13 ∨ id.tag = 17)
    (h : signCertInput rawE s.type k id s = .ok i) : (s.type = 0x10 ∨ s.type = 0x11 ∨ s.type = 0x12 ∨ s.type = 0x13) ∧
      Prescribed rawE (.user k id) s i := by
  have h0 := h
  rw [signCertInput] at h
  split at h
  · rename_i hc
    have ht := isCertification_cases hc
    refine ⟨ht, prescribed_of_input rawE _ s ?_ ?_ ?_ i ?_ (signUserInput_version h).2⟩
    · rcases ht with ht | ht | ht | ht <;> simp [Signed.fits, ht]
    · rcases ht with ht | ht | ht | ht <;> rw [ht] <;> decide
    · rintro k' id' h'
      cases h'
      exact hid
    · rw [libraryInput, if_neg (by rcases ht with ht | ht | ht | ht <;> rw [ht] <;> decide)]
      exact h0
  · exact absurd h (by simp)

/-- The signature packet `s` certifies the user ID or attribute `id` of the key `key`: among the packets, `key` is the last primary
key packet before it and `id` the last user ID or attribute behind that. -/
def CertifiesIn (packets : List (Body E)) (key : KeyPkt) (id : Body E) (s : Tag2 E) : Prop :=
  ∃ a kb b c d, packets = a ++ kb :: b ++ id :: c ++ .sig s :: d ∧ (kb.tag = 5 ∨ kb.tag = 6) ∧ kb.keyPart = some key ∧
    (id.tag = 13 ∨ id.tag = 17) ∧ (∀ x ∈ b ++ c, x.tag ≠ 5 ∧ x.tag ≠ 6) ∧ ∀ x ∈ c, x.tag ≠ 13 ∧ x.tag ≠ 17

/-- A good certification. -/
def GoodCert (cr : Crypto) (rawE : E → Bytes) (kp key : KeyPkt) (id : Body E) (s : Tag2 E) : Prop :=
  (∃ kid, kp.keyid cr = .ok kid ∧ s.getKeyid = .ok kid) ∧ (s.type = 0x10 ∨ s.type = 0x11 ∨ s.type = 0x12 ∨ s.type = 0x13) ∧
    ∃ i, Prescribed rawE (.user key id) s i ∧ GoodValues cr kp s i

theorem verifyCertification_yes (cr : Crypto) (hcr : cr.Ok) (rawE : E → Bytes) {kp : KeyPkt}
    (hs : ∀ n, kp.mpi[0]? = some n → n.log2 < 2 ^ 32) {key : KeyPkt} {id : Body E} {s : Tag2 E} (hid : id.tag = 13 ∨ id.tag = 17)
    (h : verifyCertification cr rawE kp key id s = .ok .yes) : GoodCert cr rawE kp key id s := by
  rw [verifyCertification] at h
  obtain ⟨a, ha, h⟩ := Out.bind_eq_ok.mp h
  obtain ⟨b, hb, h⟩ := Out.bind_eq_ok.mp h
  split at h
  · exact absurd (Out.ok.inj h) (by decide)
  · rename_i hab
    obtain ⟨i, hi, hg⟩ := (verifyWith_iff cr hcr hs s _).mp h
    obtain ⟨ht, hp⟩ := signCertInput_prescribed hid hi
    exact ⟨⟨a, ha, not_not.mp hab ▸ hb⟩, ht, i, hp, hg⟩

theorem certifiedLoop_yes (cr : Crypto) (hcr : cr.Ok) (rawE : E → Bytes) {kp : KeyPkt} (hs : ∀ n, kp.mpi[0]? = some n → n.log2 < 2 ^ 32)
    (post : List (Body E)) : ∀ (pre : List (Body E)) (key : Option KeyPkt) (id : Option (Body E)),
    (∀ k, key = some k → ∃ a kb b, pre = a ++ kb :: b ∧ (kb.tag = 5 ∨ kb.tag = 6) ∧ kb.keyPart = some k ∧ ∀ x ∈ b, x.tag ≠ 5 ∧ x.tag ≠ 6) →
    (∀ k i, key = some k → id = some i → ∃ a kb b c, pre = a ++ kb :: b ++ i :: c ∧ (kb.tag = 5 ∨ kb.tag = 6) ∧ kb.keyPart = some k ∧
      (i.tag = 13 ∨ i.tag = 17) ∧ (∀ x ∈ b ++ c, x.tag ≠ 5 ∧ x.tag ≠ 6) ∧ ∀ x ∈ c, x.tag ≠ 13 ∧ x.tag ≠ 17) →
    certifiedLoop cr rawE kp key id post = .ok .yes →
    ∃ key id s, CertifiesIn (pre ++ post) key id s ∧ GoodCert cr rawE kp key id s := by
  induction post with
  | nil =>
    intro pre key id _ _ h
    rw [certifiedLoop] at h
    exact absurd (Out.ok.inj h) (by decide)
  | cons b bs ih =>
    intro pre key id h1 h2 h
    have hassoc : pre ++ b :: bs = (pre ++ [b]) ++ bs := by simp
    unfold certifiedLoop at h
    have skip : (b.tag ≠ 5 ∧ b.tag ≠ 6) → (b.tag ≠ 13 ∧ b.tag ≠ 17) → certifiedLoop cr rawE kp key id bs = .ok .yes →
        ∃ key id s, CertifiesIn (pre ++ b :: bs) key id s ∧ GoodCert cr rawE kp key id s := by
      intro hk hu hl
      rw [hassoc]
      refine ih (pre ++ [b]) key id ?_ ?_ hl
      · intro k hkk
        obtain ⟨a, kb, b', rfl, ht, hkp, hb⟩ := h1 k hkk
        refine ⟨a, kb, b' ++ [b], by simp, ht, hkp, ?_⟩
        intro x hx
        rcases List.mem_append.mp hx with hx | hx
        · exact hb x hx
        · rw [List.mem_singleton.mp hx]; exact hk
      · intro k i hkk hii
        obtain ⟨a, kb, b', c, rfl, ht, hkp, hit, hb, hc⟩ := h2 k i hkk hii
        refine ⟨a, kb, b', c ++ [b], by simp, ht, hkp, hit, ?_, ?_⟩
        · intro x hx
          rw [← List.append_assoc] at hx
          rcases List.mem_append.mp hx with hx | hx
          · exact hb x hx
          · rw [List.mem_singleton.mp hx]; exact hk
        · intro x hx
          rcases List.mem_append.mp hx with hx | hx
          · exact hc x hx
          · rw [List.mem_singleton.mp hx]; exact hu
    split at h
    · rename_i hbt
      rw [hassoc]
      refine ih (pre ++ [b]) b.keyPart none ?_ (fun k i _ hi => absurd hi (by simp)) h
      intro k hk
      exact ⟨pre, b, [], by simp, hbt, hk, by simp⟩
    · rename_i hbt
      split at h
      · rename_i hut
        rw [hassoc]
        refine ih (pre ++ [b]) key (some b) ?_ ?_ h
        · intro k hkk
          obtain ⟨a, kb, b', rfl, ht, hkp, hb⟩ := h1 k hkk
          refine ⟨a, kb, b' ++ [b], by simp, ht, hkp, ?_⟩
          intro x hx
          rcases List.mem_append.mp hx with hx | hx
          · exact hb x hx
          · rw [List.mem_singleton.mp hx]; exact not_or.mp hbt
        · intro k i hkk hii
          obtain rfl := Option.some.inj hii
          obtain ⟨a, kb, b', rfl, ht, hkp, hb⟩ := h1 k hkk
          exact ⟨a, kb, b', [], by simp, ht, hkp, hut, by simpa using hb, by simp⟩
      · rename_i hut
        split at h
        · rename_i s
          obtain ⟨rc, hrc, h⟩ := Out.bind_eq_ok.mp h
          cases rc with
          | no => exact skip (not_or.mp hbt) (not_or.mp hut) h
          | error => exact absurd (Out.ok.inj h) (by decide)
          | yes =>
            have bad : ∀ {x y : Out Bytes}, (do let a ← x; let b ← y; if a ≠ b then return Verdict.no else .throw) = .ok Verdict.yes → False := by
              intro x y hrc
              obtain ⟨x, -, hrc⟩ := Out.bind_eq_ok.mp hrc
              obtain ⟨y, -, hrc⟩ := Out.bind_eq_ok.mp hrc
              split at hrc
              · exact absurd (Out.ok.inj hrc) (by decide)
              · exact absurd hrc (by simp)
            cases key with
            | none => exact (bad hrc).elim
            | some k =>
              cases id with
              | none => exact (bad hrc).elim
              | some i =>
                obtain ⟨a, kb, b', c, rfl, ht, hkp, hit, hb, hc⟩ := h2 k i rfl rfl
                exact ⟨k, i, s, ⟨a, kb, b', c, bs, by simp, ht, hkp, hit, hb, hc⟩, verifyCertification_yes cr hcr rawE hs hit hrc⟩
        · exact skip (not_or.mp hbt) (not_or.mp hut) h

/-- A key is reported as certified only if one of its signatures is a good certification of one of its user IDs or attributes by the
signing key of the signer. -/
theorem C37_certification (cr : Crypto) (hcr : cr.Ok) (rawE : E → Bytes) (signer signee : KeyObj E) (hk : signer.Sized)
    (h : verifyPrimaryKey cr rawE signer signee = .ok .yes) :
    signer.meaningful = .ok true ∧ signee.meaningful = .ok true ∧ ∃ kp key id s, SigningKey signer kp ∧
      CertifiesIn (signee.packets.map (·.body)) key id s ∧ GoodCert cr rawE kp key id s := by
  rw [verifyPrimaryKey] at h
  obtain ⟨good, hg, h⟩ := Out.bind_eq_ok.mp h
  cases good with
  | false => exact absurd (Out.ok.inj h) (by decide)
  | true =>
    simp only [Bool.not_true, Bool.false_eq_true, if_false] at h
    obtain ⟨good, hg2, h⟩ := Out.bind_eq_ok.mp h
    cases good with
    | false => exact absurd (Out.ok.inj h) (by decide)
    | true =>
      simp only [Bool.not_true, Bool.false_eq_true, if_false] at h
      obtain ⟨own, -, h⟩ := Out.bind_eq_ok.mp h
      split at h
      · exact absurd (Out.ok.inj h) (by decide)
      obtain ⟨okp, hokp, h⟩ := Out.bind_eq_ok.mp h
      cases okp with
      | none => exact absurd (Out.ok.inj h) (by decide)
      | some kp =>
        have hsk := (signingFields_iff hg kp).mp hokp
        obtain ⟨key, id, s, h1, h2⟩ := certifiedLoop_yes cr hcr rawE (hsk.sized hk) _ [] none none (by simp) (by simp) h
        exact ⟨hg, hg2, kp, key, id, s, hsk, h1, h2⟩

theorem firstVerdict_yes {α : Type} (f : α → Out Verdict) : ∀ l, firstVerdict f l = .ok .yes → ∃ x ∈ l, f x = .ok .yes
  | [], h => by rw [firstVerdict] at h; exact absurd (Out.ok.inj h) (by decide)
  | x :: xs, h => by
    rw [firstVerdict] at h
    obtain ⟨v, hv, h⟩ := Out.bind_eq_ok.mp h
    cases v with
    | yes => exact ⟨x, by simp, hv⟩
    | error => exact absurd (Out.ok.inj h) (by decide)
    | no =>
      obtain ⟨y, hy, hf⟩ := firstVerdict_yes f xs h
      exact ⟨y, by simp [hy], hf⟩

/-- A revocation certificate verifies only if it is one signature packet with the key's ID and the values of a good key, subkey or
certification revocation: over the first key packet, over one of the subkeys, or over the signing key with one of its user IDs or
attributes. -/
theorem C37_revoke (cr : Crypto) (hcr : cr.Ok) (rawE : E → Bytes) (k : KeyObj E) (hk : k.Sized) (rev : PgpObj (Pkt E))
    (h : verifyRevoke cr rawE k rev = .ok .yes) :
    ∃ p s kid kp i, rev.type = 2 ∧ rev.packets = [p] ∧ p.body = .sig s ∧ k.keyid cr = .ok kid ∧ s.getKeyid = .ok kid ∧ SigningKey k kp ∧
      GoodValues cr kp s i ∧
      ((s.type = 0x20 ∧ ∃ q key, k.packets.head? = some q ∧ q.body.keyPart = some key ∧ Prescribed rawE (.key key) s i) ∨
       (s.type = 0x28 ∧ ∃ q ∈ k.packets, ∃ key, (q.body.tag = 7 ∨ q.body.tag = 14) ∧ q.body.keyPart = some key ∧ Prescribed rawE (.key key) s i) ∨
       (s.type = 0x30 ∧ ∃ q ∈ k.packets, (q.body.tag = 13 ∨ q.body.tag = 17) ∧ Prescribed rawE (.user kp q.body) s i)) := by
  rw [verifyRevoke] at h
  obtain ⟨good, hg, h⟩ := Out.bind_eq_ok.mp h
  cases good with
  | false => exact absurd (Out.ok.inj h) (by decide)
  | true =>
    simp only [Bool.not_true, Bool.false_eq_true, if_false] at h
    cases hr : revocationPacket rev with
    | none => rw [hr] at h; exact absurd (Out.ok.inj h) (by decide)
    | some s =>
      rw [hr] at h
      dsimp only at h
      obtain ⟨hrt, p, hrp, hrb⟩ : rev.type = 2 ∧ ∃ p, rev.packets = [p] ∧ p.body = .sig s := by
        rw [revocationPacket] at hr
        split at hr
        · exact absurd hr (by simp)
        · rename_i ht
          refine ⟨not_not.mp ht, ?_⟩
          split at hr
          · rename_i f q s' hp
            split at hr
            · obtain rfl := Option.some.inj hr
              exact ⟨_, hp, rfl⟩
            · exact absurd hr (by simp)
          · exact absurd hr (by simp)
      obtain ⟨own, hown, h⟩ := Out.bind_eq_ok.mp h
      obtain ⟨kid, hkid, h⟩ := Out.bind_eq_ok.mp h
      split at h
      · exact absurd (Out.ok.inj h) (by decide)
      rename_i heq
      have heq := not_not.mp heq
      obtain ⟨okp, hokp, h⟩ := Out.bind_eq_ok.mp h
      cases okp with
      | none => exact absurd (Out.ok.inj h) (by decide)
      | some kp =>
        have hsk := (signingFields_iff hg kp).mp hokp
        have hb := hsk.sized hk
        dsimp only at h
        split at h
        · rename_i ht
          cases hps : k.packets with
          | nil => rw [hps] at h; exact absurd h (by simp)
          | cons q qs =>
            rw [hps] at h
            dsimp only at h
            cases hq : q.body.keyPart with
            | none => rw [hq] at h; exact absurd h (by simp)
            | some key =>
              rw [hq] at h
              obtain ⟨i, hi, hv⟩ := (verifyWith_iff cr hcr hb s _).mp h
              refine ⟨p, s, kid, kp, i, hrt, hrp, hrb, heq ▸ hown, hkid, hsk, hv, Or.inl ⟨ht, q, key, rfl, hq, ?_⟩⟩
              refine prescribed_of_input rawE (.key key) s (Or.inr (Or.inl ht)) (by rw [ht]; decide) (by simp) i ?_ (addtrailer_version hi)
              rw [libraryInput, if_pos ht, sign20Input, if_neg (by simp [ht])]
              exact hi
        · split at h
          · rename_i ht
            obtain ⟨b, hbm, hf⟩ := firstVerdict_yes _ _ h
            obtain ⟨i, hi, hv⟩ := (verifyWith_iff cr hcr hb s _).mp hf
            obtain ⟨hbm, hbt⟩ := List.mem_filter.mp hbm
            obtain ⟨q, hqm, rfl⟩ := List.mem_map.mp hbm
            have hkey : ∃ key, q.body.keyPart = some key ∧ sign28Input rawE (.publicSubkey key) s = .ok i := by
              cases hqb : q.body <;> rw [hqb] at hi <;> first | exact ⟨_, rfl, hi⟩ | exact absurd hi (by simp [sign28Input])
            obtain ⟨key, hkey, hin⟩ := hkey
            refine ⟨p, s, kid, kp, i, hrt, hrp, hrb, heq ▸ hown, hkid, hsk, hv, Or.inr (Or.inl ⟨ht, q, hqm, key, by simpa using hbt, hkey, ?_⟩)⟩
            refine prescribed_of_input rawE (.key key) s (Or.inr (Or.inr ht)) (by rw [ht]; decide) (by simp) i ?_ ?_
            · rw [libraryInput, if_neg (by rw [ht]; decide), if_pos ht]
              exact hin
            · rw [sign28Input, if_neg (by simp [ht])] at hin
              exact addtrailer_version hin
          · split at h
            · rename_i ht
              obtain ⟨b, hbm, hf⟩ := firstVerdict_yes _ _ h
              obtain ⟨i, hi, hv⟩ := (verifyWith_iff cr hcr hb s _).mp hf
              obtain ⟨hbm, hbt⟩ := List.mem_filter.mp hbm
              obtain ⟨q, hqm, rfl⟩ := List.mem_map.mp hbm
              have hbt : q.body.tag = 13 ∨ q.body.tag = 17 := by simpa using hbt
              refine ⟨p, s, kid, kp, i, hrt, hrp, hrb, heq ▸ hown, hkid, hsk, hv, Or.inr (Or.inr ⟨ht, q, hqm, hbt, ?_⟩)⟩
              refine prescribed_of_input rawE _ s (by simp [Signed.fits, ht]) (by rw [ht]; decide) ?_ i ?_ (signUserInput_version hi).2
              · rintro k' id' h'
                cases h'
                exact hbt
              · rw [libraryInput, if_pos ht]
                exact hi
            · exact absurd (Out.ok.inj h) (by decide)

/-! ### What follows, and what does not -/

theorem SigningKey.unique {k : KeyObj E} (hm : k.meaningful = .ok true) {a b : KeyPkt} (ha : SigningKey k a) (hb : SigningKey k b) : a = b := by
  have h1 := (signingFields_iff hm a).mpr ha
  rw [(signingFields_iff hm b).mpr hb] at h1
  exact (Option.some.inj (Out.ok.inj h1)).symm

theorem Hashed.content_inj {rawE : E → Bytes} {c c' i : Bytes} {s : Tag2 E} (h : Hashed rawE c s i) (h' : Hashed rawE c' s i) : c = c' := by
  rcases h with ⟨hv, h⟩ | ⟨hv, h⟩ <;> rcases h' with ⟨hv', h'⟩ | ⟨hv', h'⟩
  · rw [h, hashInput, hashInput] at h'
    simpa using h'
  · rw [hv] at hv'; exact absurd hv' (by decide)
  · rw [hv] at hv'; exact absurd hv' (by decide)
  · rw [h] at h'
    simpa using h'

theorem rsaHolds_digest {hash : UInt8} {d d' : Bytes} {pub sig : List Nat} (hl : d.length = d'.length) (h : RsaHolds hash d pub sig)
    (h' : RsaHolds hash d' pub sig) : d = d' := by
  obtain ⟨n, e, s, der, hn, he, hs, hd, -, hk, h⟩ := h
  obtain ⟨n', e', s', der', hn', he', hs', hd', -, hk', h'⟩ := h'
  obtain rfl : n = n' := Option.some.inj (hn.symm.trans hn')
  obtain rfl : e = e' := Option.some.inj (he.symm.trans he')
  obtain rfl : s = s' := Option.some.inj (hs.symm.trans hs')
  obtain rfl : der = der' := Option.some.inj (hd.symm.trans hd')
  rw [h] at h'
  have e1 : encodedDigest der d ((n.log2 + 1) / 8) = encodedDigest der d' ((n.log2 + 1) / 8) := by
    rw [← be_num (encodedDigest der d _), ← be_num (encodedDigest der d' _), h']
    congr 1
    simp [encodedDigest, hl]
  rw [encodedDigest, encodedDigest, hl] at e1
  exact List.append_cancel_left e1

/-- An RSA signature that verifies for two documents exhibits a collision of its hash function: the documents are the same or two
different inputs have the same hash. -/
theorem C37_same_document (cr : Crypto) (hcr : cr.Ok) (rawE : E → Bytes) (k : KeyObj E) (hk : k.Sized) (data data' : Bytes) (p : Pkt E) (s : Tag2 E)
    (hp : p.body = .sig s) (hrsa : s.pka ≠ 17) (sig : PgpObj (Pkt E)) (hsig : sig.packets = [p])
    (h : verifyDetached cr rawE k data sig = .ok .yes) (h' : verifyDetached cr rawE k data' sig = .ok .yes) :
    data = data' ∨ ∃ i i', i ≠ i' ∧ Hashed rawE data s i ∧ Hashed rawE data' s i' ∧ cr.hash s.hash i = cr.hash s.hash i' := by
  obtain ⟨s1, i, ⟨-, p1, hp1, hs1⟩, hh, hm, -, -, kp, hsk, ⟨n, hn⟩, hv⟩ := (C37_detached cr hcr rawE k hk data sig).mp h
  obtain ⟨s2, i', ⟨-, p2, hp2, hs2⟩, hh', -, -, -, kp', hsk', -, hv'⟩ := (C37_detached cr hcr rawE k hk data' sig).mp h'
  rw [hsig] at hp1 hp2
  obtain rfl : p = p1 := by simpa using hp1
  obtain rfl : p = p2 := by simpa using hp2
  obtain rfl : s = s1 := by rw [hp] at hs1; injection hs1
  obtain rfl : s = s2 := by rw [hp] at hs2; injection hs2
  obtain rfl := hsk.unique hm hsk'
  rcases hv with ⟨-, hv⟩ | ⟨hc, -⟩
  · rcases hv' with ⟨-, hv'⟩ | ⟨hc, -⟩
    · have hd := rsaHolds_digest (by rw [hcr.hash_len _ _ _ hn, hcr.hash_len _ _ _ hn]) hv hv'
      by_cases hi : i = i'
      · subst hi
        exact Or.inl (hh.content_inj hh')
      · exact Or.inr ⟨i, i', hi, hh, hh', hd⟩
    · exact absurd hc hrsa
  · exact absurd hc hrsa

/-- **Defect.** The type of a signature is not looked at: a good cleartext signature is also accepted as a detached signature over the
canonical text, and a timestamp as a signature over the empty document. -/
theorem C37_type_confusion_fails (cr : Crypto) (hcr : cr.Ok) (rawE : E → Bytes) (k : KeyObj E) (hk : k.Sized) :
    (∀ m : Cleartext (Pkt E), verifyCleartext cr rawE k m = .ok .yes →
      verifyDetached cr rawE k (joinCrlf (textLines (dataToText m.message))) m.sig = .ok .yes) ∧
    (∀ sig : PgpObj (Pkt E), verifyTimestamp cr rawE k sig = .ok .yes → verifyDetached cr rawE k [] sig = .ok .yes) := by
  constructor
  · intro m h
    rw [C37_detached cr hcr rawE k hk]
    exact (C37_cleartext cr hcr rawE k hk m).mp h
  · intro sig h
    rw [C37_detached cr hcr rawE k hk]
    obtain ⟨s, i, h1, -, h2, h3⟩ := (C37_timestamp cr hcr rawE k hk sig).mp h
    exact ⟨s, i, h1, h2, h3⟩

/-- **Defect.** Nor is it for certifications: the key and user ID that were certified are accepted as a signed document. -/
theorem C37_certification_confusion_fails (cr : Crypto) (hcr : cr.Ok) (rawE : E → Bytes) (k : KeyObj E) (hk : k.Sized) (hm : k.meaningful = .ok true)
    {kp key : KeyPkt} {id : Body E} {s : Tag2 E} {raw kid : Bytes} (hsk : SigningKey k kp) (hown : k.keyid cr = .ok kid) (hne : kid ≠ [])
    (hkid : s.getKeyid = .ok kid) (hv : s.version = 4) (hraw : id.raw rawE = .ok raw) {i : Bytes} (hp : Prescribed rawE (.user key id) s i)
    (hgood : GoodValues cr kp s i) (hleft : s.left16 = (cr.hash s.hash i).take 2) :
    verifyDetached cr rawE k (keyContent key.rawCommon ++ userContent (id.tag == 13) raw) (detachedOf s) = .ok .yes := by
  rw [C37_detached cr hcr rawE k hk]
  refine ⟨s, i, ⟨rfl, _, rfl, rfl⟩, ?_, hm, ⟨kid, hne, hkid, hown⟩, hleft, kp, hsk, hgood⟩
  obtain ⟨-, o, ho | ho, hh⟩ := hp
  · rw [contentOctets, hraw, Out.ok_bind] at ho
    obtain rfl := Out.ok.inj ho.2
    exact hh
  · rw [hv] at ho
    exact absurd ho.1 (by decide)

/-- **Defect.** For every DSA key a signature that verifies can be written down for any document, without the secret key. -/
theorem C37_dsa_forgery_fails (cr : Crypto) (hcr : cr.Ok) (rawE : E → Bytes) (k : KeyObj E) (hk : k.Sized) (hm : k.meaningful = .ok true)
    {kp : KeyPkt} {p q g y : Nat} (hsk : SigningKey k kp) (hkp : kp.mpi = [p, q, g, y]) (hp : p % 2 = 1) (hp1 : 1 < p) (hq : 1 < q)
    {kid : Bytes} (hown : k.keyid cr = .ok kid) (hne : kid ≠ []) (data : Bytes) :
    verifyDetached cr rawE k data (detachedOf { createSig 4 0 17 8 kid 0 with
      left16 := (cr.hash 8 (hashInput data (trailer 0 17 8 (writeSubpackets rawE [⟨false, .sigTime 0⟩])))).take 2
      mpi := [1, 0] }) = .ok .yes := by
  rw [C37_detached cr hcr rawE k hk]
  refine ⟨_, _, ⟨rfl, _, rfl, rfl⟩, Or.inl ⟨rfl, rfl⟩, hm, ⟨kid, hne, rfl, hown⟩, rfl, kp, hsk, ⟨32, rfl⟩, Or.inr ⟨rfl, ?_⟩⟩
  rw [hkp]
  refine ⟨p, q, g, y, 1, 0, 0, rfl, rfl, rfl, rfl, rfl, rfl, hp, by decide, hq, by omega, ?_, fun _ => rfl, ?_⟩
  · intro h
    rw [Nat.gcd_zero_left] at h
    omega
  · simp [Nat.mod_eq_of_lt hp1, Nat.mod_eq_of_lt hq]

/-- **Defect.** A message without any signature verifies under every key. -/
theorem C37_unsigned_fails (cr : Crypto) (z : Zip) (rawE : E → Bytes) (readE : Bytes → Out E) (depth : Nat) (k : KeyObj E)
    (hm : k.meaningful = .ok true) (p : Pkt E) (t : Tag11) (hp : p.body = .literal t) :
    verifyBinary cr z rawE readE (depth + 1) k ⟨none, [p]⟩ = .ok .yes := by
  have ht : [p].map (·.body.tag) = [11] := by simp [hp, Body.tag]
  have h1 : messageMeaningful [11] = .ok true := by decide
  have h2 : matchTags [11] .encryptedMessage = .ok false := by decide
  have h3 : matchTags [11] .signedMessage = .ok false := by decide
  have h4 : matchTags [11] .compressedMessage = .ok false := by decide
  have h5 : matchTags [11] .literalMessage = .ok true := by decide
  rw [verifyBinary, hm, Out.ok_bind]
  simp only [Bool.not_true, Bool.false_eq_true, if_false, Msg.meaningful, ht, h1, h2, h3, h4, h5, Out.ok_bind, if_true]
  rfl

/-- **Defect.** The algorithm is taken from the signature and the values from the key: a DSA signature packet checked with an RSA key
reads behind the end of the key's values. -/
theorem C37_algorithm_mismatch_ub (digest : Bytes) (hd : digest ≠ []) (hash : UInt8) (n e r s : Nat) :
    verifyPka digest hash 17 [n, e] [r, s] = .ub := by
  rw [verifyPka, if_neg (by decide), if_pos rfl, dsaVerify, rawtompi_eq, if_neg hd, Out.ok_bind]
  simp only [dsaVerifyInt, vecAt, List.getElem?_cons_zero, List.getElem?_cons_succ, Out.ok_bind]
  simp

/-- **Defect.** An object with one packet that is no signature is taken for a detached signature. -/
theorem C37_not_a_signature_ub (cr : Crypto) (rawE : E → Bytes) (k : KeyObj E) (hm : k.meaningful = .ok true) (data : Bytes) (p : Pkt E)
    (hp : p.body.tag ≠ 2) (armored : Bool) (keys : List (Bytes × Bytes)) : verifyDetached cr rawE k data ⟨armored, 6, keys, [p]⟩ = .ub := by
  rw [verifyDetached, verifyDocument, hm, Out.ok_bind]
  simp only [Bool.not_true, Bool.false_eq_true, if_false, detachedPacket, ne_eq, not_true]
  cases hb : p.body with
  | sig s => rw [hb] at hp; exact absurd rfl hp
  | _ => rfl

/-! ### Keys and signatures meeting the hypotheses -/

/-- A DSA key (p = 23, q = 11, g = 4, x = 6). -/
def c37Pub : KeyPkt := ⟨4, 1500000000, 17, [23, 11, 4, 2], 0⟩

/-- Values of a signature by that key, with the nonce 3. -/
def c37Sign (digest : Bytes) : List Nat := [4 ^ 3 % 23 % 11, 4 * (num digest + 6 * (4 ^ 3 % 23 % 11)) % 11]

/-- The signature `s`, completed for what is hashed. -/
def c37Complete (s : Tag2 Empty) (input : Tag2 Empty → Out Bytes) : Tag2 Empty :=
  match digestOf demoCrypto s (input s) with
  | .ok d => { s with left16 := d.take 2, mpi := c37Sign d }
  | _ => s

def c37Kid : Bytes := match c37Pub.keyid demoCrypto with | .ok k => k | _ => []

/-- The certified key; the certification is made by itself. -/
def c37Key : KeyObj Empty :=
  ⟨.pub, [⟨.new, false, .publicKey c37Pub⟩, ⟨.new, false, .userId [97]⟩,
    ⟨.new, false, .sig (c37Complete (createSig 4 0x13 17 8 c37Kid 7) (signCertInput (fun e => nomatch e) 0x13 c37Pub (.userId [97])))⟩]⟩

def c37Sig (type : UInt8) (input : Tag2 Empty → Out Bytes) : PgpObj (Pkt Empty) := detachedOf (c37Complete (createSig 4 type 17 8 c37Kid 7) input)

example : c37Key.meaningful = .ok true ∧ c37Key.keyid demoCrypto = .ok c37Kid ∧ c37Kid.length = 8 := by decide +kernel

theorem c37Key_sized : c37Key.Sized := by
  intro p hp kp hkp n hn
  simp only [c37Key, List.mem_cons, List.not_mem_nil, or_false] at hp
  rcases hp with rfl | rfl | rfl
  · obtain rfl := Option.some.inj hkp
    simp only [c37Pub, List.mem_cons, List.not_mem_nil, or_false] at hn
    rcases hn with rfl | rfl | rfl | rfl <;> decide
  · exact absurd hkp (by simp [Body.keyPart])
  · exact absurd hkp (by simp [Body.keyPart])

example : SigningKey c37Key c37Pub := ⟨[], _, _, rfl, rfl, Or.inr (Or.inr rfl), by simp⟩

/-- Good signatures are accepted, and refused for other data. -/
example : verifyDetached demoCrypto (fun e => nomatch e) c37Key [1, 2] (c37Sig 0 (sign00Input (fun e => nomatch e) [1, 2])) = .ok .yes ∧
    verifyDetached demoCrypto (fun e => nomatch e) c37Key [1, 2, 3] (c37Sig 0 (sign00Input (fun e => nomatch e) [1, 2])) = .ok .no := by
  decide +kernel

example : verifyCleartext demoCrypto (fun e => nomatch e) c37Key ⟨[], ascii "a\nb", c37Sig 1 (sign01Input (fun e => nomatch e) (ascii "a\nb"))⟩ = .ok .yes := by
  decide +kernel

example : verifyTimestamp demoCrypto (fun e => nomatch e) c37Key (c37Sig 0x40 (sign40Input (fun e => nomatch e))) = .ok .yes := by
  decide +kernel

example : verifyPrimaryKey demoCrypto (fun e => nomatch e) c37Key c37Key = .ok .yes := by decide +kernel

example : verifyRevoke demoCrypto (fun e => nomatch e) c37Key ⟨true, 2, [], [⟨.new, false,
    .sig (c37Complete (createSig 4 0x20 17 8 c37Kid 7) (sign20Input (fun e => nomatch e) (.publicKey c37Pub)))⟩]⟩ = .ok .yes := by decide +kernel

/-- A signed message. -/
example : verifyBinary demoCrypto demoZip (fun e => nomatch e) (fun _ => .throw) 1 c37Key ⟨none, [⟨.new, false, .onePass ⟨3, 0, 8, 17, c37Kid, 1⟩⟩,
    ⟨.new, false, .literal ⟨0x62, [], 7, [1, 2]⟩⟩,
    ⟨.new, false, .sig (c37Complete (createSig 4 0 17 8 c37Kid 7) (sign00Input (fun e => nomatch e) [1, 2]))⟩]⟩ = .ok .yes := by decide +kernel

end OpenPGP
