import Verif.Props.C36
import Verif.Props.C44

/-!
# C36, C44: when signing works at all, and when what it makes does not verify
-/
namespace OpenPGP
open Rfc
variable {E : Type}

/-- RSA signing returns one value when the modulus has room for the encoded digest. -/
theorem signPka_rsa {hash : UInt8} {digest d : Bytes} {pub pri draws : List Nat} {n : Nat} (hl : hashLen hash = some digest.length)
    (hd : derPrefix hash = some d) (hk : RsaKey pub pri) (hn : pub[0]? = some n) (hlog : n.log2 < 2 ^ 32)
    (hroom : d.length + 3 + digest.length ≤ (n.log2 + 1) / 8) : ∃ s, signPka draws digest 1 pri pub hash = .ok [s] := by
  have hbs : bitsize n / 8 = (n.log2 + 1) / 8 := rfl
  rw [signPka, if_pos (Or.inl rfl), vecAt_eq_ok.mpr hn, Out.ok_bind, C19_encode hl hd (by rw [hbs]; exact hroom) (by rw [hbs]; omega), Out.ok_bind,
    rsaSign, rawtompi_eq, if_neg (by simp), Out.ok_bind]
  obtain ⟨p, q, e, d', rest, hp, hq, -, h2, h2', rfl, rfl, -⟩ := hk
  obtain rfl : p * q = n := by simpa using hn
  simp only [rsaDecrypt, vecAt, List.getElem?_cons_zero, Out.ok_bind, powm_odd (mod_odd_mul hp hq h2 h2')]
  exact ⟨_, rfl⟩

/-- The modulus of the key has room for the digests of the hash. -/
def Room (hash : UInt8) (mpi : List Nat) : Prop :=
  ∃ n len d, mpi[0]? = some n ∧ hashLen hash = some len ∧ derPrefix hash = some d ∧ d.length + 3 + len ≤ (n.log2 + 1) / 8

theorem makeSig_rsa {cr : Crypto} (hcr : cr.Ok) {a : SignArgs E} {before : List (Pkt E)} {t : Tag5} {pri draws : List Nat}
    (h : CanSign cr a before t pri) (h1 : t.key.pka = 1) {sig : Tag2 E} (hroom : Room sig.hash t.key.mpi) {input : Tag2 E → Out Bytes} {i : Bytes}
    (hi : input sig = .ok i) : ∃ s, makeSig cr a draws t sig input = .ok (some s) := by
  obtain ⟨n, len, d, hn, hl, hd, hr⟩ := hroom
  obtain ⟨p, after, hp, ht⟩ := h.packets
  have hsz := h.sized p (by rw [hp]; simp) t.key (keyPart_of_secretPart ht) n (List.mem_of_getElem? hn)
  have hlen := hcr.hash_len _ _ i hl
  have hk : RsaKey t.key.mpi pri := by
    rcases h.pair with ⟨-, h⟩ | ⟨h, -⟩
    · exact h
    · rw [h1] at h; exact absurd h (by decide)
  obtain ⟨s, hs⟩ := signPka_rsa (draws := draws) (by rw [hl, hlen]) hd hk hn hsz (by rw [hlen]; exact hr)
  rw [makeSig, digestOf, hi, Out.ok_bind, hashUse, if_pos (by rw [hl]; rfl), Out.ok_bind, finishSig, substr, if_neg (by omega), Out.ok_bind, h.opens,
    Out.ok_bind, h1, hs, Out.ok_bind, if_neg (by simp)]
  exact ⟨_, rfl⟩

/-- An RSA primary key of version 4 with a modulus large enough can sign every document in every way, and everything it signs verifies with
the public key (a DSA key depends on the nonces, C25_sign_returns). -/
theorem C36_rsa_signs (cr : Crypto) (hcr : cr.Ok) (z : Zip) (rawE : E → Bytes) (readE : Bytes → Out E) (depth depth' : Nat) (a : SignArgs E) (t : Tag5)
    (pri : List Nat) (h : CanSign cr a [] t pri) (h1 : t.key.pka = 1) (h4 : t.key.version = 4) (hv : a.version = 4) (hroom : Room a.hash t.key.mpi)
    (now : Nat) (draws : List Nat) (data filename : Bytes) (time : Nat) :
    ∃ pub, a.pri.getPublic = .ok pub ∧
      (a.pri.revokeCheck = .ok .no → ∃ d, signDetached cr rawE a now draws data = .ok d ∧ verifyDetached cr rawE pub data d = .ok .yes) ∧
      (∃ c, signCleartext cr rawE a now draws data = .ok c ∧ c.message = data ∧ verifyCleartext cr rawE pub c = .ok .yes) ∧
      (∃ ts, signTimestamp cr rawE a now draws time = .ok ts ∧ verifyTimestamp cr rawE pub ts = .ok .yes) ∧
      ∃ m, signBinary cr z rawE readE depth a now draws filename data 0 = .ok m ∧ verifyBinary cr z rawE readE (depth' + 1) pub m = .ok .yes := by
  have hsome : (hashLen a.hash).isSome := by obtain ⟨n, len, d, -, hl, -⟩ := hroom; rw [hl]; rfl
  obtain ⟨len, hlen⟩ := Option.isSome_iff_exists.mp hsome
  obtain ⟨pub, hpub, -⟩ := h.public
  obtain ⟨kid, hkid, hk8⟩ : ∃ kid, t.key.keyid cr = .ok kid ∧ kid.length = 8 := by
    obtain ⟨f, -, -, -, hkid, hk8⟩ := C11_keyid cr hcr t.key h4
    exact ⟨_, hkid, hk8⟩
  have hvalid := SignArgs.valid_of h (Or.inr hv) hlen
  obtain ⟨s0, hs0⟩ := makeSig_rsa (draws := draws) hcr h h1 (sig := createSig a.version 0 t.key.pka a.hash kid now) hroom
    (input := sign00Input rawE data) (addtrailer_v4 rawE data _ hv)
  obtain ⟨s1, hs1⟩ := makeSig_rsa (draws := draws) hcr h h1 (sig := createSig a.version 1 t.key.pka a.hash kid now) hroom
    (input := sign01Input rawE (dataToText data)) (addtrailer_v4 rawE _ _ hv)
  obtain ⟨s2, hs2⟩ := makeSig_rsa (draws := draws) hcr h h1
    (sig := { (createSig a.version 0x40 t.key.pka a.hash kid now : Tag2 E) with hashed := [⟨false, .sigTime time⟩] }) hroom
    (input := sign40Input rawE) ((if_neg (by simp [createSig])).trans (addtrailer_v4 rawE _ _ hv))
  refine ⟨pub, hpub, fun hrev => ?_, ?_, ?_, ?_⟩
  · have e : signDetached cr rawE a now draws data = .ok (detachedOf s0) := by
      rw [signDetached, hvalid, Out.ok_bind]
      simp only [Bool.not_true, Bool.false_eq_true, if_false, h.signerOf, Out.ok_bind, hrev, hkid, hs0, Out.pure_eq]
    exact ⟨_, e, C36_detached cr hcr rawE a t pri h hv hsome hrev now draws data _ pub hpub e⟩
  · have e : signCleartext cr rawE a now draws data = .ok ⟨[(ascii "Hash", hashName a.hash)], data, detachedOf s1⟩ := by
      rw [signCleartext, hvalid, Out.ok_bind]
      simp only [Bool.not_true, Bool.false_eq_true, if_false, h.signerOf, Out.ok_bind, hkid, hs1, Out.pure_eq]
    exact ⟨_, e, C36_cleartext cr hcr rawE a t pri h hv hsome now draws data _ pub hpub e⟩
  · have e : signTimestamp cr rawE a now draws time = .ok (detachedOf s2) := by
      rw [signTimestamp, hvalid, Out.ok_bind]
      simp only [Bool.not_true, Bool.false_eq_true, if_false, h.signerOf, Out.ok_bind, hkid, hs2, Out.pure_eq]
    exact ⟨_, e, (C36_timestamp cr hcr rawE a t pri h hv hsome now draws time _ pub hpub e).1⟩
  · have e : signBinary cr z rawE readE depth a now draws filename data 0 = .ok ⟨none, [⟨.new, false, .onePass ⟨3, 0, a.hash, t.key.pka, kid, 1⟩⟩,
        ⟨.new, false, .literal ⟨0x62, filename, now, data⟩⟩, ⟨.new, false, .sig s0⟩]⟩ := by
      rw [signBinary, hvalid, Out.ok_bind]
      simp only [Bool.not_true, Bool.false_eq_true, if_false, h.signerOf, Out.ok_bind, hkid, Tag4.checkKeyid, hk8, ne_eq, not_true_eq_false, hs0,
        compressSigned, if_true]
    exact ⟨_, e, (C36_binary cr hcr z rawE readE depth depth' a [] t pri h (Or.inr hv) hsome now draws filename data _ pub hpub e).1⟩

/-! ### Limits -/

theorem notDetached_noDetached (s : Tag2 E) : ¬ IsDetached (noDetached : PgpObj (Pkt E)) s := by
  rintro ⟨-, p, hp, -⟩
  exact absurd hp (by simp [noDetached, PgpObj.fresh])

/-- What a document signing operation returns is an object without packets, or the signature packet that was made. -/
theorem makeSig_fields {cr : Crypto} {a : SignArgs E} {draws : List Nat} {t : Tag5} {sig s : Tag2 E} {input : Tag2 E → Out Bytes}
    (h : makeSig cr a draws t sig input = .ok (some s)) : s.version = sig.version ∧ s.keyid = sig.keyid ∧ s.hashed = sig.hashed ∧ s.unhashed = sig.unhashed := by
  rw [makeSig] at h
  obtain ⟨d, -, h⟩ := Out.bind_eq_ok.mp h
  rw [finishSig] at h
  obtain ⟨l, -, h⟩ := Out.bind_eq_ok.mp h
  obtain ⟨p, -, h⟩ := Out.bind_eq_ok.mp h
  obtain ⟨v, -, h⟩ := Out.bind_eq_ok.mp h
  split at h
  · exact absurd (Out.ok.inj h) (by simp)
  · obtain rfl := Option.some.inj (Out.ok.inj h)
    exact ⟨rfl, rfl, rfl, rfl⟩

theorem signDetached_cases {cr : Crypto} {rawE : E → Bytes} {a : SignArgs E} {now : Nat} {draws : List Nat} {data : Bytes} {sig : PgpObj (Pkt E)}
    (h : signDetached cr rawE a now draws data = .ok sig) : sig = noDetached ∨ a.pri.revokeCheck = .ok .no ∧ ∃ t kid s, signerOf a.pri = .ok (some t) ∧
      t.key.keyid cr = .ok kid ∧ sig = detachedOf s ∧ s.version = a.version ∧ s.keyid = [] ∧ s.hashed = [⟨false, .sigTime now⟩] ∧
      s.unhashed = [⟨false, .issuer kid⟩] := by
  rw [signDetached] at h
  obtain ⟨v, -, h⟩ := Out.bind_eq_ok.mp h
  split at h
  · exact Or.inl (Out.ok.inj h).symm
  obtain ⟨o, ho, h⟩ := Out.bind_eq_ok.mp h
  cases o with
  | none => exact Or.inl (Out.ok.inj h).symm
  | some t =>
    dsimp only at h
    obtain ⟨r, hr, h⟩ := Out.bind_eq_ok.mp h
    cases r with
    | yes => exact Or.inl (Out.ok.inj h).symm
    | error => exact Or.inl (Out.ok.inj h).symm
    | no =>
      dsimp only at h
      obtain ⟨kid, hkid, h⟩ := Out.bind_eq_ok.mp h
      obtain ⟨os, hos, h⟩ := Out.bind_eq_ok.mp h
      cases os with
      | none => exact Or.inl (Out.ok.inj h).symm
      | some s =>
        obtain ⟨h1, h2, h3, h4⟩ := makeSig_fields hos
        exact Or.inr ⟨hr, t, kid, s, ho, hkid, (Out.ok.inj h).symm, h1, h2, h3, h4⟩

theorem signCleartext_cases {cr : Crypto} {rawE : E → Bytes} {a : SignArgs E} {now : Nat} {draws : List Nat} {text : Bytes} {m : Cleartext (Pkt E)}
    (h : signCleartext cr rawE a now draws text = .ok m) : m = .fresh ∨ ∃ t kid s, signerOf a.pri = .ok (some t) ∧
      t.key.keyid cr = .ok kid ∧ m.sig = detachedOf s ∧ s.version = a.version ∧ s.keyid = [] ∧ s.hashed = [⟨false, .sigTime now⟩] ∧
      s.unhashed = [⟨false, .issuer kid⟩] := by
  rw [signCleartext] at h
  obtain ⟨v, -, h⟩ := Out.bind_eq_ok.mp h
  split at h
  · exact Or.inl (Out.ok.inj h).symm
  obtain ⟨o, ho, h⟩ := Out.bind_eq_ok.mp h
  cases o with
  | none => exact Or.inl (Out.ok.inj h).symm
  | some t =>
    dsimp only at h
    obtain ⟨kid, hkid, h⟩ := Out.bind_eq_ok.mp h
    obtain ⟨os, hos, h⟩ := Out.bind_eq_ok.mp h
    cases os with
    | none => exact Or.inl (Out.ok.inj h).symm
    | some s =>
      obtain ⟨h1, h2, h3, h4⟩ := makeSig_fields hos
      obtain rfl := (Out.ok.inj h)
      exact Or.inr ⟨t, kid, s, ho, hkid, rfl, h1, h2, h3, h4⟩

theorem signTimestamp_cases {cr : Crypto} {rawE : E → Bytes} {a : SignArgs E} {now : Nat} {draws : List Nat} {time : Nat} {sig : PgpObj (Pkt E)}
    (h : signTimestamp cr rawE a now draws time = .ok sig) : sig = noDetached ∨ ∃ t kid s, signerOf a.pri = .ok (some t) ∧
      t.key.keyid cr = .ok kid ∧ sig = detachedOf s ∧ s.version = a.version ∧ s.keyid = [] ∧ s.hashed = [⟨false, .sigTime time⟩] ∧
      s.unhashed = [⟨false, .issuer kid⟩] := by
  rw [signTimestamp] at h
  obtain ⟨v, -, h⟩ := Out.bind_eq_ok.mp h
  split at h
  · exact Or.inl (Out.ok.inj h).symm
  obtain ⟨o, ho, h⟩ := Out.bind_eq_ok.mp h
  cases o with
  | none => exact Or.inl (Out.ok.inj h).symm
  | some t =>
    dsimp only at h
    obtain ⟨kid, hkid, h⟩ := Out.bind_eq_ok.mp h
    obtain ⟨os, hos, h⟩ := Out.bind_eq_ok.mp h
    cases os with
    | none => exact Or.inl (Out.ok.inj h).symm
    | some s =>
      obtain ⟨h1, h2, h3, h4⟩ := makeSig_fields hos
      exact Or.inr ⟨t, kid, s, ho, hkid, (Out.ok.inj h).symm, h1, h2, h3, h4⟩

theorem isDetached_detachedOf {s s' : Tag2 E} (h : IsDetached (detachedOf s) s') : s' = s := by
  obtain ⟨-, p, hp, hb⟩ := h
  obtain rfl := List.singleton_inj.mp hp
  exact (Body.sig.inj hb).symm

/-- A document signature whose named key is not that of the verifying key does not verify. -/
theorem not_goodDocument {cr : Crypto} {k : KeyObj E} {s : Tag2 E} {i kid : Bytes} (hk : s.getKeyid = .ok kid) (hne : kid = [] ∨ k.keyid cr ≠ .ok kid) :
    ¬ GoodDocument cr k s i := by
  rintro ⟨-, ⟨id, h1, h2, h3⟩, -⟩
  rw [hk] at h2
  obtain rfl := Out.ok.inj h2
  rcases hne with h | h
  · exact h1 h
  · exact h h3

/-- Signatures of version 3 name no key: none of them verifies, whatever the key. -/
theorem C36_v3_fails (cr : Crypto) (hcr : cr.Ok) (rawE : E → Bytes) (a : SignArgs E) (hv : a.version = 3) (now : Nat) (draws : List Nat) (data : Bytes)
    (time : Nat) (k : KeyObj E) (hk : k.Sized) :
    (∀ sig, signDetached cr rawE a now draws data = .ok sig → verifyDetached cr rawE k data sig ≠ .ok .yes) ∧
    (∀ m, signCleartext cr rawE a now draws data = .ok m → verifyCleartext cr rawE k m ≠ .ok .yes) ∧
    ∀ sig, signTimestamp cr rawE a now draws time = .ok sig → verifyTimestamp cr rawE k sig ≠ .ok .yes := by
  have key : ∀ s : Tag2 E, s.version = a.version → s.keyid = [] → ∀ i, ¬ GoodDocument cr k s i := by
    intro s h1 h2 i
    exact not_goodDocument (kid := []) (by rw [Tag2.getKeyid, if_pos (h1.trans hv), h2]) (Or.inl rfl)
  refine ⟨fun sig h hy => ?_, fun m h hy => ?_, fun sig h hy => ?_⟩
  · obtain ⟨s, i, hd, -, hg⟩ := (C37_detached cr hcr rawE k hk data sig).mp hy
    rcases signDetached_cases h with rfl | ⟨-, t, kid, s', -, -, rfl, h1, h2, -⟩
    · exact notDetached_noDetached s hd
    · obtain rfl := isDetached_detachedOf hd
      exact key s h1 h2 i hg
  · obtain ⟨s, i, hd, -, hg⟩ := (C37_cleartext cr hcr rawE k hk m).mp hy
    rcases signCleartext_cases h with rfl | ⟨t, kid, s', -, -, he, h1, h2, -⟩
    · obtain ⟨-, p, hp, -⟩ := hd
      exact absurd hp (by simp [Cleartext.fresh, PgpObj.fresh])
    · rw [he] at hd
      obtain rfl := isDetached_detachedOf hd
      exact key s h1 h2 i hg
  · obtain ⟨s, i, hd, -, -, hg⟩ := (C37_timestamp cr hcr rawE k hk sig).mp hy
    rcases signTimestamp_cases h with rfl | ⟨t, kid, s', -, -, rfl, h1, h2, -⟩
    · exact notDetached_noDetached s hd
    · obtain rfl := isDetached_detachedOf hd
      exact key s h1 h2 i hg

/-- Signatures made by a subkey name the subkey, while verification compares with the primary key: when the key IDs differ, none of
them verifies. -/
theorem C36_signing_subkey_fails (cr : Crypto) (hcr : cr.Ok) (rawE : E → Bytes) (a : SignArgs E) (hv : a.version = 4) (now : Nat) (draws : List Nat)
    (data : Bytes) (time : Nat) (t : Tag5) (ht : signerOf a.pri = .ok (some t)) (k : KeyObj E) (hk : k.Sized) (hne : k.keyid cr ≠ t.key.keyid cr) :
    (∀ sig, signDetached cr rawE a now draws data = .ok sig → verifyDetached cr rawE k data sig ≠ .ok .yes) ∧
    (∀ m, signCleartext cr rawE a now draws data = .ok m → verifyCleartext cr rawE k m ≠ .ok .yes) ∧
    ∀ sig, signTimestamp cr rawE a now draws time = .ok sig → verifyTimestamp cr rawE k sig ≠ .ok .yes := by
  have key : ∀ (t' : Tag5) (s : Tag2 E) (kid : Bytes), signerOf a.pri = .ok (some t') → t'.key.keyid cr = .ok kid → s.version = a.version →
      s.unhashed = [⟨false, .issuer kid⟩] → ∀ i, ¬ GoodDocument cr k s i := by
    intro t' s kid h0 h1 h2 h3 i
    obtain rfl : t = t' := by rw [ht] at h0; exact Option.some.inj (Out.ok.inj h0)
    exact not_goodDocument (getKeyid_v4 s (h2.trans hv) kid h3) (Or.inr (by rw [← h1]; exact hne))
  refine ⟨fun sig h hy => ?_, fun m h hy => ?_, fun sig h hy => ?_⟩
  · obtain ⟨s, i, hd, -, hg⟩ := (C37_detached cr hcr rawE k hk data sig).mp hy
    rcases signDetached_cases h with rfl | ⟨-, t', kid, s', h0, h1, rfl, h2, -, -, h3⟩
    · exact notDetached_noDetached s hd
    · obtain rfl := isDetached_detachedOf hd
      exact key t' s kid h0 h1 h2 h3 i hg
  · obtain ⟨s, i, hd, -, hg⟩ := (C37_cleartext cr hcr rawE k hk m).mp hy
    rcases signCleartext_cases h with rfl | ⟨t', kid, s', h0, h1, he, h2, -, -, h3⟩
    · obtain ⟨-, p, hp, -⟩ := hd
      exact absurd hp (by simp [Cleartext.fresh, PgpObj.fresh])
    · rw [he] at hd
      obtain rfl := isDetached_detachedOf hd
      exact key t' s kid h0 h1 h2 h3 i hg
  · obtain ⟨s, i, hd, -, -, hg⟩ := (C37_timestamp cr hcr rawE k hk sig).mp hy
    rcases signTimestamp_cases h with rfl | ⟨t', kid, s', h0, h1, rfl, h2, -, -, h3⟩
    · exact notDetached_noDetached s hd
    · obtain rfl := isDetached_detachedOf hd
      exact key t' s kid h0 h1 h2 h3 i hg

/-- RSA keys for signing only (algorithm 3) sign nothing: the values made are none, and every operation returns an object without
packets. -/
theorem C36_rsa_sign_only_fails (cr : Crypto) (rawE : E → Bytes) (a : SignArgs E) (t : Tag5) (ht : signerOf a.pri = .ok (some t))
    (h3 : t.key.pka = 3) (now : Nat) (draws : List Nat) (data : Bytes) (sig : PgpObj (Pkt E))
    (h : signDetached cr rawE a now draws data = .ok sig) : sig.packets = [] := by
  have none : ∀ (s s' : Tag2 E) (input : Tag2 E → Out Bytes), makeSig cr a draws t s input ≠ .ok (some s') := by
    intro s s' input hm
    rw [makeSig] at hm
    obtain ⟨d, -, hm⟩ := Out.bind_eq_ok.mp hm
    rw [finishSig] at hm
    obtain ⟨l, -, hm⟩ := Out.bind_eq_ok.mp hm
    obtain ⟨p, -, hm⟩ := Out.bind_eq_ok.mp hm
    rw [signPka, h3, if_neg (by decide), if_neg (by decide)] at hm
    exact absurd hm (by simp [Out.pure_eq])
  rw [signDetached] at h
  obtain ⟨v, -, h⟩ := Out.bind_eq_ok.mp h
  split at h
  · obtain rfl := Out.ok.inj h; rfl
  rw [ht, Out.ok_bind] at h
  dsimp only at h
  obtain ⟨r, hr, h⟩ := Out.bind_eq_ok.mp h
  cases r with
  | yes => obtain rfl := Out.ok.inj h; rfl
  | error => obtain rfl := Out.ok.inj h; rfl
  | no =>
    dsimp only at h
    obtain ⟨kid, hkid, h⟩ := Out.bind_eq_ok.mp h
    obtain ⟨os, hos, h⟩ := Out.bind_eq_ok.mp h
    cases os with
    | none => obtain rfl := Out.ok.inj h; rfl
    | some s => exact absurd hos (none _ _ _)

/-- A passphrase that does not open the key (the secret values come out as an empty list, C13) makes RSA and DSA signing read past the
end of that list. -/
theorem C36_passphrase_ub (cr : Crypto) (hcr : cr.Ok) (rawE : E → Bytes) (a : SignArgs E) (t : Tag5) (hvalid : a.valid = .ok true) (hv : a.version = 4)
    (ht : signerOf a.pri = .ok (some t)) (hrev : a.pri.revokeCheck = .ok .no) (hpass : t.decryptSecretKeys cr a.pass = .ok []) (h1 : t.key.pka = 1)
    (h4 : t.key.version = 4) (hroom : Room a.hash t.key.mpi) (hs : ∀ n ∈ t.key.mpi, n.log2 < 2 ^ 32) (now : Nat) (draws : List Nat) (data : Bytes) :
    signDetached cr rawE a now draws data = .ub := by
  obtain ⟨kid, hkid, -⟩ : ∃ kid, t.key.keyid cr = .ok kid ∧ kid.length = 8 := by
    obtain ⟨f, -, -, -, hkid, hk8⟩ := C11_keyid cr hcr t.key h4
    exact ⟨_, hkid, hk8⟩
  obtain ⟨n, len, d, hn, hl, hd, hr⟩ := hroom
  have hbs : bitsize n / 8 = (n.log2 + 1) / 8 := rfl
  have hsz := hs n (List.mem_of_getElem? hn)
  rw [signDetached, hvalid, Out.ok_bind]
  simp only [Bool.not_true, Bool.false_eq_true, if_false, ht, Out.ok_bind, hrev, hkid]
  have hi : sign00Input rawE data (createSig a.version 0 t.key.pka a.hash kid now : Tag2 E) = .ok _ := addtrailer_v4 rawE data _ hv
  rw [makeSig, digestOf, hi, Out.ok_bind, hashUse, if_pos (by show (hashLen a.hash).isSome = true; rw [hl]; rfl), Out.ok_bind, finishSig, substr, if_neg (by omega),
    Out.ok_bind, hpass, Out.ok_bind, signPka, if_pos (Or.inl h1), vecAt_eq_ok.mpr hn, Out.ok_bind]
  rw [C19_encode (h := (createSig a.version 0 t.key.pka a.hash kid now : Tag2 E).hash) hl hd (by rw [hbs]; exact hr) (by rw [hbs]; omega), Out.ok_bind, rsaSign, rawtompi_eq, if_neg (by simp), Out.ok_bind]
  rfl

/-- `Sign::primary_key_binding` looks for a public subkey packet in the secret key: it never makes a signature. -/
theorem C36_primary_key_binding_fails (cr : Crypto) (rawE : E → Bytes) (a : SignArgs E) (now : Nat) (draws : List Nat) (signee : KeyObj E)
    (r : Option (Tag2 E)) (h : signPrimaryKeyBinding cr rawE a now draws signee = .ok r) : r = none := by
  rw [signPrimaryKeyBinding] at h
  obtain ⟨v, hv, h⟩ := Out.bind_eq_ok.mp h
  split at h
  · exact (Out.ok.inj h).symm
  rename_i hvt
  obtain ⟨hk, hm⟩ : a.pri.kind = .sec ∧ a.pri.meaningful = .ok true := by
    rw [SignArgs.valid] at hv
    split at hv
    · rw [← Out.ok.inj hv] at hvt; exact absurd rfl hvt
    · rename_i hk
      refine ⟨not_not.mp hk, ?_⟩
      obtain ⟨g, hg, hv⟩ := Out.bind_eq_ok.mp hv
      cases g with
      | true => exact hg
      | false => rw [← Out.ok.inj hv] at hvt; exact absurd rfl hvt
  have hno : (a.pri.packets.any fun p => p.body.tag == 14) = false := by
    rw [KeyObj.meaningful, hk, C30_meaningful_iff .sec 5 7 rfl] at hm
    obtain ⟨p', revs, users, subkeys, e, h5, hr, hu, -, hsub, -⟩ := hm
    rw [List.any_eq_false]
    intro p hp
    have hb : p.body ∈ p' :: (revs ++ users.flatten ++ subkeys.flatten) := by rw [← e]; exact List.mem_map_of_mem hp
    have hsig : ∀ {b : Body E}, IsSig b → b.tag ≠ 14 := by
      rintro b ⟨s, rfl⟩
      simp [Body.tag]
    have : p.body.tag ≠ 14 := by
      rcases List.mem_cons.mp hb with hb | hb
      · rw [hb, h5]; decide
      rcases List.mem_append.mp hb with hb | hb
      · rcases List.mem_append.mp hb with hb | hb
        · obtain ⟨s, hs, -⟩ := hr _ hb
          exact hsig ⟨s, hs⟩
        · obtain ⟨g, hg, hbg⟩ := List.mem_flatten.mp hb
          obtain ⟨c, sigs, rfl, ht, hs⟩ := userBlock_split (hu g hg)
          rcases List.mem_cons.mp hbg with hbg | hbg
          · rw [hbg]; omega
          · exact hsig (hs _ hbg)
      · obtain ⟨g, hg, hbg⟩ := List.mem_flatten.mp hb
        obtain ⟨c, sigs, rfl, ht, hs⟩ := subkeyBlock_split (hsub g hg)
        rcases List.mem_cons.mp hbg with hbg | hbg
        · rw [hbg]; omega
        · exact hsig (hs _ hbg)
    simpa using this
  obtain ⟨o, ho, h⟩ := Out.bind_eq_ok.mp h
  cases o with
  | none => exact (Out.ok.inj h).symm
  | some t =>
    dsimp only at h
    split at h
    · exact (Out.ok.inj h).symm
    · rw [hno] at h
      exact (Out.ok.inj h).symm

/-- Hash algorithms that are only named (reserved and experimental numbers) pass the check of the arguments and make signing throw. -/
theorem C36_reserved_hash_throws (cr : Crypto) (hcr : cr.Ok) (rawE : E → Bytes) (a : SignArgs E) (t : Tag5) (hvalid : a.valid = .ok true)
    (hv : a.version = 4) (ht : signerOf a.pri = .ok (some t)) (hrev : a.pri.revokeCheck = .ok .no) (h4 : t.key.version = 4) (hh : hashLen a.hash = none)
    (now : Nat) (draws : List Nat) (data : Bytes) : signDetached cr rawE a now draws data = .throw := by
  obtain ⟨f, -, -, -, hkid, hk8⟩ := C11_keyid cr hcr t.key h4
  rw [signDetached, hvalid, Out.ok_bind]
  simp only [Bool.not_true, Bool.false_eq_true, if_false, ht, Out.ok_bind, hrev, hkid]
  have hi : sign00Input rawE data (createSig a.version 0 t.key.pka a.hash (f.drop 12) now : Tag2 E) = .ok _ := addtrailer_v4 rawE data _ hv
  rw [makeSig, digestOf, hi, Out.ok_bind, hashUse, if_neg (by show ¬ (hashLen a.hash).isSome = true; rw [hh]; decide)]
  rfl

/-! ### Revoked keys -/

/-- A revoked key makes no detached signature, and neither certifies nor is certified. -/
theorem C44_detached_refused (cr : Crypto) (rawE : E → Bytes) (a : SignArgs E) (hrev : a.pri.revokeCheck = .ok .yes) (now : Nat) (draws : List Nat)
    (data : Bytes) (sig : PgpObj (Pkt E)) (h : signDetached cr rawE a now draws data = .ok sig) : sig.packets = [] := by
  rcases signDetached_cases h with rfl | ⟨h, -⟩
  · rfl
  · rw [hrev] at h
    exact absurd (Out.ok.inj h) (by simp)

theorem C44_certification_refused (cr : Crypto) (rawE : E → Bytes) (a : SignArgs E) (signee : KeyObj E)
    (hrev : a.pri.revokeCheck = .ok .yes ∨ signee.revokeCheck = .ok .yes) (now : Nat) (draws : List Nat) (user : Bytes) (cert : UInt8)
    (r : KeyObj E) (h : signPrimaryKey cr rawE a now draws signee user cert = .ok r) : r.packets = [] := by
  rw [signPrimaryKey] at h
  obtain ⟨v, -, h⟩ := Out.bind_eq_ok.mp h
  split at h
  · obtain rfl := Out.ok.inj h; rfl
  obtain ⟨r1, hr1, h⟩ := Out.bind_eq_ok.mp h
  cases r1 with
  | yes => obtain rfl := Out.ok.inj h; rfl
  | error => obtain rfl := Out.ok.inj h; rfl
  | no =>
    dsimp only at h
    obtain ⟨good, -, h⟩ := Out.bind_eq_ok.mp h
    split at h
    · obtain rfl := Out.ok.inj h; rfl
    obtain ⟨r2, hr2, h⟩ := Out.bind_eq_ok.mp h
    cases r2 with
    | yes => obtain rfl := Out.ok.inj h; rfl
    | error => obtain rfl := Out.ok.inj h; rfl
    | no =>
      rcases hrev with hrev | hrev
      · rw [hrev] at hr1; exact absurd (Out.ok.inj hr1) (by simp)
      · rw [hrev] at hr2; exact absurd (Out.ok.inj hr2) (by simp)

/-- Cleartext signatures, timestamps and signed messages are made with revoked keys as with any other, and verify. -/
theorem C44_revoked_signs_fails (cr : Crypto) (hcr : cr.Ok) (z : Zip) (rawE : E → Bytes) (readE : Bytes → Out E) (depth depth' : Nat) (a : SignArgs E)
    (t : Tag5) (pri : List Nat) (h : CanSign cr a [] t pri) (h1 : t.key.pka = 1) (h4 : t.key.version = 4) (hv : a.version = 4)
    (hroom : Room a.hash t.key.mpi) (_hrev : a.pri.revokeCheck = .ok .yes) (now : Nat) (draws : List Nat) (data filename : Bytes) (time : Nat) :
    ∃ pub, a.pri.getPublic = .ok pub ∧
      (∃ c, signCleartext cr rawE a now draws data = .ok c ∧ verifyCleartext cr rawE pub c = .ok .yes) ∧
      (∃ ts, signTimestamp cr rawE a now draws time = .ok ts ∧ verifyTimestamp cr rawE pub ts = .ok .yes) ∧
      ∃ m, signBinary cr z rawE readE depth a now draws filename data 0 = .ok m ∧ verifyBinary cr z rawE readE (depth' + 1) pub m = .ok .yes := by
  obtain ⟨pub, hpub, -, ⟨c, h1, -, h2⟩, hts, hm⟩ := C36_rsa_signs cr hcr z rawE readE depth depth' a t pri h h1 h4 hv hroom now draws data filename time
  exact ⟨pub, hpub, ⟨c, h1, h2⟩, hts, hm⟩

/-! ### Such a key -/

/-- A 648 bit RSA key. -/
def c36Pub : List Nat := [mersenne 521 * mersenne 127, 65537]
def c36Pri : List Nat := [193900767558032071937636487021452117448910287312278971207800283425644781136078887330150457137153435273259066364624685827854923748501752122182388647400968388233585136878839649485385373845435689473]

theorem c36_key : RsaKey c36Pub c36Pri :=
  ⟨mersenne 521, mersenne 127, 65537, _, [], lucas_lehmer_sufficiency 521 (by simp) (by norm_num), c26_primes.1, by decide +kernel, by decide +kernel,
    by decide +kernel, rfl, rfl, by decide +kernel⟩

def c36Tag5 : Tag5 :=
  ⟨⟨4, 1500000000, 1, c36Pub, 0⟩, 0, 0, none, [], writeMPIs c36Pri ++ be 2 (octetSum (writeMPIs c36Pri))⟩

/-- With a user ID and a certification, and possibly its revocation. -/
def c36Args (revoked : Bool) : SignArgs Empty :=
  ⟨⟨.sec, [⟨.new, false, .secretKey c36Tag5⟩, ⟨.new, false, .userId [97]⟩, ⟨.new, false, .sig (c30Sig 0x13)⟩] ++
    (if revoked then [⟨.new, false, .sig (c30Sig 0x30)⟩] else [])⟩, [], 4, 8⟩

theorem c36_parts (b : Bool) : ∀ p ∈ (c36Args b).pri.packets, p.body = .secretKey c36Tag5 ∨ (p.body.secretPart = none ∧ p.body.keyPart = none) := by
  cases b <;> simp [c36Args, Body.secretPart, Body.keyPart]

theorem c36_canSign (b : Bool) : CanSign demoCrypto (c36Args b) [] c36Tag5 c36Pri where
  sec := rfl
  meaningful := by cases b <;> decide +kernel
  sound := by
    intro p hp t ht
    rcases c36_parts b p hp with h | h
    · rw [h] at ht
      obtain rfl := Option.some.inj ht
      exact ⟨Or.inl ⟨rfl, by decide +kernel, by decide +kernel, by decide +kernel, rfl⟩, by decide +kernel⟩
    · rw [h.1] at ht
      cases ht
  sized := by
    intro p hp kp hk n hn
    rcases c36_parts b p hp with h | h
    · rw [h] at hk
      obtain rfl := Option.some.inj hk
      have hall : ∀ n ∈ c36Pub, n.log2 < 2 ^ 32 := by decide +kernel
      exact hall n hn
    · rw [h.2] at hk
      cases hk
  packets := ⟨_, _, rfl, rfl⟩
  first := by simp
  opens := by cases b <;> decide +kernel
  pair := Or.inl ⟨rfl, c36_key⟩

theorem c36_room : Room 8 c36Tag5.key.mpi := ⟨_, _, _, rfl, rfl, rfl, by decide +kernel⟩

example : (c36Args false).pri.revokeCheck = .ok .no ∧ (c36Args true).pri.revokeCheck = .ok .yes ∧ c36Tag5.key.version = 4 ∧ c36Tag5.key.pka = 1 :=
  ⟨by decide +kernel, by decide +kernel, rfl, rfl⟩

/-- A tiny DSA key. -/
def c36Dsa : Tag5 := ⟨c37Pub, 0, 0, none, [], writeMPIs [6] ++ be 2 (octetSum (writeMPIs [6]))⟩

def c36DsaArgs : SignArgs Empty :=
  ⟨⟨.sec, [⟨.new, false, .secretKey c36Dsa⟩, ⟨.new, false, .userId [97]⟩, ⟨.new, false, .sig (c30Sig 0x13)⟩]⟩, [], 4, 8⟩

theorem c36Dsa_parts : ∀ p ∈ c36DsaArgs.pri.packets, p.body = .secretKey c36Dsa ∨ (p.body.secretPart = none ∧ p.body.keyPart = none) := by
  simp [c36DsaArgs, Body.secretPart, Body.keyPart]

theorem c36Dsa_canSign : CanSign demoCrypto c36DsaArgs [] c36Dsa [6] where
  sec := rfl
  meaningful := by decide +kernel
  sound := by
    intro p hp t ht
    rcases c36Dsa_parts p hp with h | h
    · rw [h] at ht
      obtain rfl := Option.some.inj ht
      exact ⟨Or.inl ⟨rfl, by decide +kernel, by decide +kernel, by decide +kernel, rfl⟩, by decide +kernel⟩
    · rw [h.1] at ht
      cases ht
  sized := by
    intro p hp kp hk n hn
    rcases c36Dsa_parts p hp with h | h
    · rw [h] at hk
      obtain rfl := Option.some.inj hk
      have hall : ∀ n ∈ c37Pub.mpi, n.log2 < 2 ^ 32 := by decide +kernel
      exact hall n hn
    · rw [h.2] at hk
      cases hk
  packets := ⟨_, _, rfl, rfl⟩
  first := by simp
  opens := by decide +kernel
  pair := Or.inr ⟨rfl, 23, 11, 4, 2, 6, by norm_num, by decide, by norm_num, by decide, rfl, rfl, by decide⟩

/-- Another key, not certified by it yet. -/
def c36Signee : KeyObj Empty :=
  ⟨.pub, [⟨.new, false, .publicKey ⟨4, 1500000001, 1, [0xffee, 17], 0⟩⟩, ⟨.new, false, .userId [97, 98]⟩, ⟨.new, false, .sig (c30Sig 0x13)⟩]⟩

/-- The hypotheses of `C36_certification` are met: the key is certified, and the certification is found. -/
example : (∃ r, signPrimaryKey demoCrypto (fun e => nomatch e) c36DsaArgs 7 [3] c36Signee [98] 0x13 = .ok r ∧ r.packets.length = 4 ∧
    verifyPrimaryKey demoCrypto (fun e => nomatch e) c37Key r = .ok .yes) := by
  have h : (match signPrimaryKey demoCrypto (fun e => nomatch e) c36DsaArgs 7 [3] c36Signee [98] 0x13 with
    | .ok r => decide (r.packets.length = 4 ∧ verifyPrimaryKey demoCrypto (fun e => nomatch e) c37Key r = .ok .yes)
    | _ => false) = true := by decide +kernel
  generalize signPrimaryKey demoCrypto (fun e => nomatch e) c36DsaArgs 7 [3] c36Signee [98] 0x13 = o at h ⊢
  cases o with
  | ok r => exact ⟨r, rfl, of_decide_eq_true h⟩
  | _ => cases h

end OpenPGP
