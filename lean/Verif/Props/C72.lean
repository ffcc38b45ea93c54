import Verif.Model.Gpg
import Verif.Model.CryptPka
import Verif.Model.Verify
import Verif.Spec.Gpg
import Verif.Lemmas.KeyPkt
import Verif.Lemmas.Tag2
import Verif.Props.C01
import Verif.Props.C23

/-!
# C72: the build with `GPG_COMPATIBLE`

Elliptic-curve keys are read as RFC 6637 has them, wherever they are, and written as they were read; their fingerprints are the ones of the RFC.
RSA keys come in the sizes GnuPG takes. `Spec/Gpg.lean` has the octets of such keys and derives the identifiers of the curves from their numbers.
-/
namespace OpenPGP
open Rfc6637

/-- The members of a packet that holds the key `k`. -/
def EcMembers (g : GpgKey) (k : EcKey) : Prop :=
  g.key.version = 4 ∧ g.key.time = k.time ∧ g.key.pka = k.alg.id ∧ g.key.mpi = [k.point] ∧ g.curve = k.curve ∧
    ∀ h c, k.alg = .ecdh h c → g.kdfSize = 3 ∧ g.kdfHash = h ∧ g.kdfAlg = c

theorem hexlify_caps_inj {s t : Bytes} (caps : Bool) (h : hexlify s caps = hexlify t caps) : s = t := by
  have h1 := C01_hex_roundtrip s caps
  rw [h, C01_hex_roundtrip t caps] at h1
  exact (Out.ok.inj h1).symm

/-- The table has the seven curves of the specification, by their DER encodings, and nothing else. -/
theorem C72_curves : curveLengths = curves.map fun c => (hexlify (oid c) true, (oid c).length) := by decide +kernel

/-- A curve is found under its identifier and under nothing else, with the length of the identifier. -/
theorem C72_curve_iff (c : Bytes) (n : Nat) :
    curveLengths.lookup (hexlify c true) = some n ↔ c ∈ curves.map oid ∧ n = c.length := by
  rw [C72_curves]
  generalize curves = l
  induction l with
  | nil => simp
  | cons x l ih =>
    simp only [List.map_cons, List.lookup_cons, List.mem_cons]
    by_cases hx : c = oid x
    · subst hx
      simp [eq_comm]
    · have : (hexlify c true == hexlify (oid x) true) = false := by
        rw [beq_eq_false_iff_ne]; exact fun h => hx (hexlify_caps_inj _ h)
      rw [this, ih]
      simp [hx]

theorem curve_lookup_none {c : Bytes} (h : c ∉ curves.map oid) : curveLengths.lookup (hexlify c true) = none := by
  cases h1 : curveLengths.lookup (hexlify c true) with
  | none => rfl
  | some n => exact absurd ((C72_curve_iff c n).mp h1).1 h

theorem readPoint_at {data : Bytes} {pos : Nat} {c rest : Bytes} {q : Nat} (hc : c.length < 256) (hq : bitsize q ≤ 65528)
    (hd : data.drop pos = [UInt8.ofNat c.length] ++ (c ++ (mpiOctets q ++ rest))) :
    GpgKey.readPoint data pos = .ok (c, q, pos + 1 + c.length + (mpiOctets q).length) := by
  have hp : pos + 1 ≤ data.length := le_of_drop_cons hd
  have hd1 := drop_field hd (n := 1) rfl
  have hd2 := drop_field hd1 rfl
  have hn : (UInt8.ofNat c.length).toNat = c.length := by simp [Nat.mod_eq_of_lt hc]
  rw [GpgKey.readPoint, charAt_drop hd, Out.ok_bind, hn, substr_drop hp hd1 rfl, Out.ok_bind,
    show pos + (c.length + 1) = pos + 1 + c.length by omega, readMPI_at hd2 hq, Out.ok_bind]
  rfl

/-- Reading: wherever the octets of a key are, they are read as this key, and reading ends behind them. -/
theorem C72_read (k : EcKey) (hk : k.Fits) {data : Bytes} {pos : Nat} {rest : Bytes} (hd : data.drop pos = k.body ++ rest) :
    ∃ g, GpgKey.readCommon data pos = .ok (g, pos + k.body.length) ∧ EcMembers g k := by
  obtain ⟨time, alg, curve, point⟩ := k
  obtain ⟨h1, ⟨-, h2⟩, h3⟩ := hk
  simp only at h1 h2 h3
  simp only [EcKey.body, List.append_assoc] at hd ⊢
  have hp : pos + 1 ≤ data.length := le_of_drop_cons hd
  have hd1 := drop_field hd (n := 1) rfl
  have hd2 := drop_field hd1 (be_length 4 _)
  have hd3 := drop_field hd2 (n := 1) rfl
  have hr := readPoint_at (by omega) h3 hd3
  have hd4 := drop_field hd3 (n := 1) rfl
  have hd5 := drop_field hd4 rfl
  have hd6 := drop_field hd5 rfl
  rw [GpgKey.readCommon, charAt_drop hd, Out.ok_bind, substr_drop hp hd1 (be_length 4 _), Out.ok_bind]
  simp only
  rw [if_neg (by decide), if_pos trivial, charAt_drop hd2, Out.ok_bind, toint256_be4 _ h1, Nat.mod_eq_of_lt h1,
    show pos + 6 = pos + 1 + 4 + 1 by omega]
  cases alg with
  | ecdsa =>
    refine ⟨⟨⟨4, time, 19, [point], 0⟩, curve, 0, 0, 0⟩, ?_, rfl, rfl, rfl, rfl, rfl, by simp⟩
    rw [show KeyPkt.mpiCount (Alg.ecdsa).id = none by decide]
    simp only [Alg.id]
    rw [if_pos (by decide), hr, Out.ok_bind]
    simp only [Out.pure_eq, List.length_append, List.length_singleton, be_length, Alg.kdf, List.length_nil]
    congr 2; omega
  | eddsa =>
    refine ⟨⟨⟨4, time, 22, [point], 0⟩, curve, 0, 0, 0⟩, ?_, rfl, rfl, rfl, rfl, rfl, by simp⟩
    rw [show KeyPkt.mpiCount (Alg.eddsa).id = none by decide]
    simp only [Alg.id]
    rw [if_pos (by decide), hr, Out.ok_bind]
    simp only [Out.pure_eq, List.length_append, List.length_singleton, be_length, Alg.kdf, List.length_nil]
    congr 2; omega
  | ecdh h c =>
    refine ⟨⟨⟨4, time, 18, [point], 0⟩, curve, 3, h, c⟩, ?_, rfl, rfl, rfl, rfl, rfl, ?_⟩
    · rw [show KeyPkt.mpiCount (Alg.ecdh h c).id = none by rw [Alg.id]; decide]
      simp only [Alg.id]
      rw [if_neg (by decide), if_pos (by decide), hr, Out.ok_bind]
      simp only [Alg.kdf, List.cons_append, List.nil_append] at hd6
      have hd7 := drop_field (m := [3]) hd6 (n := 1) rfl
      have hd8 := drop_field (m := [1]) hd7 (n := 1) rfl
      have hd9 := drop_field (m := [h]) hd8 (n := 1) rfl
      simp only
      rw [charAt_drop hd6, Out.ok_bind]
      rw [charAt_drop hd8, Out.ok_bind]
      rw [charAt_drop hd9, Out.ok_bind]
      simp only [Out.pure_eq, List.length_append, be_length, Alg.kdf, List.length_cons, List.length_nil]
      congr 2; omega
    · intro h' c' he; cases he; exact ⟨rfl, rfl, rfl⟩

/-- Writing: a key on a curve of the table is written as RFC 6637 has it. -/
theorem C72_write (g : GpgKey) (k : EcKey) (h : EcMembers g k) (hc : k.curve ∈ curves.map oid) : g.rawCommon = .ok k.body := by
  obtain ⟨⟨version, time, pka, mpi, expire⟩, curve, s, hh, a⟩ := g
  obtain ⟨time', alg, curve', point⟩ := k
  obtain ⟨h1, h2, h3, h4, h5, h6⟩ := h
  simp only at h1 h2 h3 h4 h5 h6 hc
  subst h1 h2 h3 h4 h5
  have hl := (C72_curve_iff curve curve.length).mpr ⟨hc, rfl⟩
  cases alg with
  | ecdsa => simp [GpgKey.rawCommon, Alg.id, hl, EcKey.body, Alg.kdf, writeMPIs, mpiOctets]; try decide
  | eddsa => simp [GpgKey.rawCommon, Alg.id, hl, EcKey.body, Alg.kdf, writeMPIs, mpiOctets]; try decide
  | ecdh h c =>
    obtain ⟨rfl, rfl, rfl⟩ := h6 h c rfl
    simp [GpgKey.rawCommon, Alg.id, hl, EcKey.body, Alg.kdf, writeMPIs, mpiOctets]; try decide

/-- Whatever the rest of the packet, a key on another curve cannot be written, and has no fingerprint. -/
theorem C72_unknown_curve_throws (cr : Crypto) (g : GpgKey) (h : g.key.pka = 18 ∨ g.key.pka = 19 ∨ g.key.pka = 22)
    (hc : g.curve ∉ curves.map oid) : g.rawCommon = .throw ∧ (g.key.version = 4 → g.fingerprint cr = .throw) := by
  have h1 : g.rawCommon = .throw := by
    rw [GpgKey.rawCommon, if_pos (by rcases h with h | h | h <;> simp [h]), curve_lookup_none hc]
    rfl
  refine ⟨h1, fun hv => ?_⟩
  rw [GpgKey.fingerprint, hv, h1]
  rfl

/-- So the packet of a key read from octets is written with the same octets … -/
theorem C72_roundtrip (k : EcKey) (hk : k.Fits) (hc : k.curve ∈ curves.map oid) (part : Bool) (pre rest : Bytes) :
    ∃ g, GpgKey.readAt ⟨pre ++ k.body ++ rest, pre.length, k.body.length, part⟩ = .ok g ∧ EcMembers g k ∧ g.rawCommon = .ok k.body := by
  have hd : (pre ++ k.body ++ rest).drop pre.length = k.body ++ rest := by rw [List.append_assoc, List.drop_left]
  obtain ⟨g, h1, h2⟩ := C72_read k hk hd
  refine ⟨g, ?_, h2, C72_write g k h2 hc⟩
  rw [GpgKey.readAt, tagRead, if_neg (by simp [EcKey.body])]
  simp only
  rw [h1]
  simp

/-- … and its fingerprint is the one of RFC 4880, 12.2 over these octets. -/
theorem C72_fingerprint (cr : Crypto) (g : GpgKey) (k : EcKey) (h : EcMembers g k) (hc : k.curve ∈ curves.map oid) :
    g.fingerprint cr = .ok (cr.hash 2 ([0x99] ++ be 2 k.body.length ++ k.body)) := by
  rw [GpgKey.fingerprint, h.1, C72_write g k h hc]
  rfl

/-- Two keys with the same octets under the hash are the same key. -/
theorem C72_body_injective (k l : EcKey) (hk : k.Fits) (hl : l.Fits) (h : k.body = l.body) :
    k.time = l.time ∧ k.alg.id = l.alg.id ∧ k.curve = l.curve ∧ k.point = l.point ∧ k.alg.kdf = l.alg.kdf := by
  obtain ⟨g, h1, a1, a2, a3, a4, a5, a6⟩ := C72_read (data := k.body) (pos := 0) (rest := []) k hk (by simp)
  obtain ⟨g', h1', b1, b2, b3, b4, b5, b6⟩ := C72_read (data := k.body) (pos := 0) (rest := []) l hl (by simp [h])
  rw [h1] at h1'
  obtain ⟨rfl, -⟩ := Prod.mk.inj (Out.ok.inj h1')
  have e3 : k.alg.id = l.alg.id := a3.symm.trans b3
  refine ⟨a2.symm.trans b2, e3, a5.symm.trans b5, by simpa using a4.symm.trans b4, ?_⟩
  cases hka : k.alg <;> cases hla : l.alg <;> rw [hka, hla] at e3 <;> simp only [Alg.id] at e3 <;> try (exact absurd e3 (by decide))
  obtain ⟨c1, c2, c3⟩ := a6 _ _ hka
  obtain ⟨d1, d2, d3⟩ := b6 _ _ hla
  simp [Alg.kdf, ← c2, ← c3, ← d2, ← d3]

/-- The other algorithms and the old versions are read as without the option. -/
theorem C72_others (data : Bytes) (pos : Nat) (k : KeyPkt) (p : Nat) :
    KeyPkt.readCommon data pos = .ok (k, p) → GpgKey.readCommon data pos = .ok (⟨k, [], 0, 0, 0⟩, p) := by
  intro h
  rw [KeyPkt.readCommon] at h
  rw [GpgKey.readCommon]
  obtain ⟨v, hv, h⟩ := Out.bind_eq_ok.mp h
  obtain ⟨t, ht, h⟩ := Out.bind_eq_ok.mp h
  rw [hv, Out.ok_bind, ht, Out.ok_bind]
  simp only at h ⊢
  split at h
  · rename_i h4
    rw [if_pos h4]
    obtain ⟨a, ha, h⟩ := Out.bind_eq_ok.mp h
    obtain ⟨b, hb, h⟩ := Out.bind_eq_ok.mp h
    obtain ⟨c, hc, h⟩ := Out.bind_eq_ok.mp h
    obtain ⟨m, hm, h⟩ := Out.bind_eq_ok.mp h
    rw [ha, Out.ok_bind, hb, Out.ok_bind, hc, Out.ok_bind, hm, Out.ok_bind]
    cases h; rfl
  · rename_i h4
    rw [if_neg h4]
    split at h
    · rename_i h5
      rw [if_pos h5]
      obtain ⟨c, hc, h⟩ := Out.bind_eq_ok.mp h
      rw [hc, Out.ok_bind]
      split at h
      · cases h
      · rename_i n hn
        rw [hn]
        obtain ⟨m, hm, h⟩ := Out.bind_eq_ok.mp h
        simp only
        rw [hm, Out.ok_bind]
        cases h; rfl
    · rename_i h5
      rw [if_neg h5]
      cases h; rfl

/-- They are written as without the option, too. -/
theorem C72_others_raw (g : GpgKey) (h : g.key.pka ≠ 18 ∧ g.key.pka ≠ 19 ∧ g.key.pka ≠ 22) : g.rawCommon = .ok g.key.rawCommon := by
  simp [GpgKey.rawCommon, KeyPkt.rawCommon, h]

/-- The second octet of the key derivation parameters is not kept, so an ECDH key with another value there (reserved for later versions by
RFC 6637, 9) is written differently, and its fingerprint is taken over octets that are not the ones of the packet. -/
theorem C72_kdf_fails (cr : Crypto) (time : Nat) (ht : time < 2 ^ 32) (curve : Bytes) (hc : curve ∈ curves.map oid) (point : Nat)
    (hp : bitsize point ≤ 65528) (size x h c : UInt8) (hx : x ≠ 1) (part : Bool) :
    let body := [4] ++ be 4 time ++ [18] ++ [UInt8.ofNat curve.length] ++ curve ++ mpiOctets point ++ [size, x, h, c]
    let wrong := [4] ++ be 4 time ++ [18] ++ [UInt8.ofNat curve.length] ++ curve ++ mpiOctets point ++ [size, 1, h, c]
    ∃ g, GpgKey.readAt ⟨body, 0, body.length, part⟩ = .ok g ∧ g.rawCommon = .ok wrong ∧ wrong ≠ body ∧
      g.fingerprint cr = .ok (cr.hash 2 ([0x99] ++ be 2 wrong.length ++ wrong)) := by
  intro body wrong
  have hlen : curve.length < 256 := by
    have : ∀ c ∈ curves.map oid, c.length < 256 := by decide +kernel
    exact this _ hc
  have hl := (C72_curve_iff curve curve.length).mpr ⟨hc, rfl⟩
  have hd : body.drop 0 = [4] ++ (be 4 time ++ ([18] ++ ([UInt8.ofNat curve.length] ++ (curve ++ (mpiOctets point ++ [size, x, h, c]))))) := by
    simp [body]
  have hpl : 0 + 1 ≤ body.length := le_of_drop_cons hd
  have hd1 := drop_field hd (n := 1) rfl
  have hd2 := drop_field hd1 (be_length 4 _)
  have hd3 := drop_field hd2 (n := 1) rfl
  have hr := readPoint_at hlen hp hd3
  have hd4 := drop_field hd3 (n := 1) rfl
  have hd5 := drop_field hd4 rfl
  have hd6 := drop_field hd5 rfl
  have hd7 := drop_field (m := [size]) hd6 (n := 1) rfl
  have hd8 := drop_field (m := [x]) hd7 (n := 1) rfl
  have hd9 := drop_field (m := [h]) hd8 (n := 1) rfl
  have hread : GpgKey.readCommon body 0 = .ok (⟨⟨4, time, 18, [point], 0⟩, curve, size, h, c⟩, body.length) := by
    rw [GpgKey.readCommon, charAt_drop hd, Out.ok_bind, substr_drop hpl hd1 (be_length 4 _), Out.ok_bind]
    simp only
    rw [if_neg (by decide), if_pos trivial, charAt_drop hd2, Out.ok_bind, toint256_be4 _ ht, Nat.mod_eq_of_lt ht,
      show 0 + 6 = 0 + 1 + 4 + 1 by omega, show KeyPkt.mpiCount 18 = none by decide]
    simp only
    rw [if_neg (by decide), if_pos trivial, hr, Out.ok_bind]
    simp only
    rw [charAt_drop hd6, Out.ok_bind, charAt_drop hd8, Out.ok_bind, charAt_drop hd9, Out.ok_bind]
    simp [body]
    omega
  have hraw : GpgKey.rawCommon ⟨⟨4, time, 18, [point], 0⟩, curve, size, h, c⟩ = .ok wrong := by
    have h3 : ¬ (4 : UInt8) < 4 := by decide
    simp [GpgKey.rawCommon, hl, wrong, writeMPIs, mpiOctets, h3]
  refine ⟨_, ?_, hraw, ?_, ?_⟩
  · rw [GpgKey.readAt, tagRead, if_neg (by simp [body])]
    simp only
    rw [hread]
    simp
  · intro he
    simp [wrong, body, hx.symm] at he
  · rw [GpgKey.fingerprint]
    simp only
    rw [if_neg (by decide), if_pos trivial, hraw]
    rfl

/-! ## What the keys are good for -/

/-- The algorithms of this build are said to sign and to encrypt … -/
theorem C72_usable (a : Alg) : (gpgCanSign a.id = true ↔ a = .ecdsa ∨ a = .eddsa) ∧ (gpgCanEncrypt a.id = true ↔ ∃ h c, a = .ecdh h c) := by
  cases a <;> simp [Alg.id, gpgCanSign, gpgCanEncrypt]

/-- … but no signature of them is ever accepted (or refused): there is an error for every digest, key and signature, … -/
theorem C72_never_verified (a : Alg) (digest : Bytes) (hash : UInt8) (signer sig : List Nat) :
    verifyPka digest hash a.id signer sig = .ok .error := by
  cases a <;> simp [verifyPka, Alg.id]

/-- … and encryption for an ECDH key gives a packet without any session key: nobody can read the message. -/
theorem C72_session_key_lost_fails (mpi : List Nat) (draws : Bytes) (eph : Nat) (sym : UInt8) (key : Bytes) (vals : List Nat)
    (h : wrapSessionKey 18 mpi draws eph sym key = .ok vals) : vals = [] := by
  rw [wrapSessionKey] at h
  obtain ⟨n, -, h⟩ := Out.bind_eq_ok.mp h
  obtain ⟨em, -, h⟩ := Out.bind_eq_ok.mp h
  obtain ⟨m, -, h⟩ := Out.bind_eq_ok.mp h
  rw [if_neg (by decide), if_neg (by decide)] at h
  cases h; rfl

/-- The signatures of RFC 6637, 10 and of GnuPG are read as the two numbers they have; of RSA there is one. Reading ends behind them. -/
theorem C72_signature_read (a : Alg) (r s : Nat) (hr : bitsize r ≤ 65528) (hs : bitsize s ≤ 65528) (data rest : Bytes) (pos : Nat) :
    (∀ id, (id = a.id ∧ a.id ≠ 18) ∨ id = 17 → data.drop pos = mpiOctets r ++ mpiOctets s ++ rest →
      gpgReadSigMpi id data pos = .ok ([r, s], pos + (mpiOctets r ++ mpiOctets s).length)) ∧
    (∀ id, id = 1 ∨ id = 3 → data.drop pos = mpiOctets r ++ rest → gpgReadSigMpi id data pos = .ok ([r], pos + (mpiOctets r).length)) := by
  refine ⟨fun id hid hd => ?_, fun id hid hd => ?_⟩
  · have h2 : id = 17 ∨ id = 19 ∨ id = 22 := by
      rcases hid with ⟨rfl, h⟩ | rfl
      · cases a <;> simp_all [Alg.id]
      · simp
    have hw : writeMPIs [r, s] = mpiOctets r ++ mpiOctets s := by simp [writeMPIs, mpiOctets]
    rw [gpgReadSigMpi, if_pos h2, ← hw]
    exact readMPIs_at [r, s] (rest := rest) (by rw [hw]; exact hd) (by simp [hr, hs])
  · have hw : writeMPIs [r] = mpiOctets r := by simp [writeMPIs, mpiOctets]
    rw [gpgReadSigMpi, if_neg (by rcases hid with rfl | rfl <;> decide), ← hw]
    exact readMPIs_at [r] (rest := rest) (by rw [hw]; exact hd) (by simp [hr])

/-- Fingerprints of the keys of RFC 4880 are as they are in the other build: for version 3 that of the numbers without their lengths (12.2). -/
theorem C72_fingerprint_others (cr : Crypto) (g : GpgKey) (h : g.key.pka ≠ 18 ∧ g.key.pka ≠ 19 ∧ g.key.pka ≠ 22) :
    g.fingerprint cr = g.key.fingerprint cr ∧
      ∀ n e, g.key.version < 4 → g.key.mpi = [n, e] → g.fingerprint cr = .ok (cr.hash 1 (be (n.log2 / 8 + 1) n ++ be (e.log2 / 8 + 1) e)) := by
  constructor
  · rw [GpgKey.fingerprint, KeyPkt.fingerprint, C72_others_raw g h]
    rfl
  · intro n e hv hm
    rw [GpgKey.fingerprint, if_pos hv, hm]
    simp [mpiOctets, be_length, mpiRaw]

/-! ## The subpacket with the issuer's fingerprint -/

/-- What is not empty is read as a version and a fingerprint of any length, and written back; it is valid if the fingerprint has 20 octets. -/
theorem C72_issuer (v : UInt8) (f : Bytes) :
    Sub33.read (v :: f) = ⟨v, f⟩ ∧ (Sub33.read (v :: f)).raw = v :: f ∧ ((Sub33.read (v :: f)).valid = true ↔ f.length = 20) := by
  simp [Sub33.read, Sub33.raw, Sub33.valid]

/-- An empty one becomes one octet. -/
theorem C72_issuer_empty_fails : (Sub33.read []).raw = [0] := rfl

/-! ## RSA keys in the sizes of GnuPG -/

/-- The sizes (of the modulus) that are taken. -/
def GpgSize (n : Nat) : Prop := 1024 ≤ n ∧ n ≤ 4096 ∧ 32 ∣ n

theorem rsaPrimesGpg_spec {np : Nat → Nat} {bits nb : Nat} (draws : List Nat) {p q : Nat} {r : List Nat}
    (h : rsaPrimesGpg np bits nb draws = .ok (p, q, r)) :
    (∃ a b, a ∈ draws ∧ b ∈ draws ∧ p = np (2 ^ (bits - 1) + a) ∧ q = np (2 ^ (bits - 1) + b)) ∧
      (bitsize (p * q) = nb ∨ bitsize (p * q) = nb - 8) := by
  induction draws using rsaPrimesGpg.induct (np := np) (bits := bits) (nbitsize := nb) with
  | case1 a b l p' q' hs =>
    rw [rsaPrimesGpg, if_pos hs] at h
    cases h
    exact ⟨⟨a, b, by simp, by simp, rfl, rfl⟩, hs⟩
  | case2 a b l p' q' hs ih =>
    rw [rsaPrimesGpg, if_neg hs] at h
    obtain ⟨⟨x, y, hx, hy, h1⟩, h2⟩ := ih h
    exact ⟨⟨x, y, by simp [hx], by simp [hy], h1⟩, h2⟩
  | case3 l hl =>
    rcases l with _ | ⟨a, _ | ⟨b, l⟩⟩
    · simp [rsaPrimesGpg] at h
    · simp [rsaPrimesGpg] at h
    · exact absurd rfl (hl a b l)

theorem le_bitsize {n k : Nat} (h : 2 ^ k ≤ n) : k + 1 ≤ bitsize n := by
  have : k ≤ n.log2 := (Nat.le_log2 (by have := Nat.two_pow_pos k; omega)).mpr h
  unfold bitsize; omega

theorem rsaPrimesGpg_large {np : Nat → Nat} (hgt : ∀ a, a < np a) {bits a b : Nat} (hb : 1 ≤ bits) :
    2 * bits - 1 ≤ bitsize (np (2 ^ (bits - 1) + a) * np (2 ^ (bits - 1) + b)) := by
  have h1 := hgt (2 ^ (bits - 1) + a)
  have h2 := hgt (2 ^ (bits - 1) + b)
  have h3 : 2 ^ (2 * (bits - 1)) ≤ np (2 ^ (bits - 1) + a) * np (2 ^ (bits - 1) + b) := by
    rw [two_mul, Nat.pow_add]
    exact Nat.mul_le_mul (by omega) (by omega)
  have := le_bitsize h3
  omega

theorem nbitsize_iff {bits : Nat} (hb : bits < 2 ^ 31) :
    (bits * 2 % 2 ^ 32 < 1024 ∨ bits * 2 % 2 ^ 32 % 32 ≠ 0 ∨ 4096 < bits * 2 % 2 ^ 32) ↔ ¬ GpgSize (2 * bits) := by
  rw [show bits * 2 % 2 ^ 32 = 2 * bits by omega, GpgSize]
  omega

/-- No key of another size is made: the result is empty, whatever is drawn. -/
theorem C72_rsa_refused (np : Nat → Nat) (bits : Nat) (hb : bits < 2 ^ 31) (h : ¬ GpgSize (2 * bits)) (draws : List Nat) :
    rsaKeygenGpg np bits draws = .ok [] := by
  rw [rsaKeygenGpg]
  simp only
  rw [if_pos ((nbitsize_iff hb).mpr h)]

/-- For the sizes GnuPG takes, a key is made with a modulus of exactly this size (the other size the loop accepts does not occur), and it is a key as
in C23, but for the inverse of `p` when both primes are the same. -/
theorem C72_rsa {np : Nat → Nat} (hnp : ∀ a, (np a).Prime) (hgt : ∀ a, a < np a) {bits : Nat} (h : GpgSize (2 * bits)) {draws vals : List Nat}
    (hk : rsaKeygenGpg np bits draws = .ok vals) :
    ∃ n e d p q u, vals = [n, e, d, p, q, u] ∧ bitsize n = 2 * bits ∧ p.Prime ∧ q.Prime ∧ p ≤ q ∧ n = p * q ∧ e % 2 = 1 ∧
      e * d % ((p - 1) * (q - 1)) = 1 % ((p - 1) * (q - 1)) ∧ (p < q → p * u % q = 1) := by
  have hb : bits < 2 ^ 31 := by have := h.2.1; omega
  have hb1 : 512 ≤ bits := by have := h.1; omega
  rw [rsaKeygenGpg] at hk
  simp only at hk
  rw [if_neg (fun hc => (nbitsize_iff hb).mp hc h)] at hk
  rw [show bits * 2 % 2 ^ 32 = 2 * bits by omega] at hk
  obtain ⟨⟨p, q, r⟩, h1, h2⟩ := Out.bind_eq_ok.mp hk
  obtain ⟨⟨a, b, -, -, hpa, hqb⟩, hsize⟩ := rsaPrimesGpg_spec _ h1
  have hlarge := rsaPrimesGpg_large hgt (bits := bits) (a := a) (b := b) (by omega)
  rw [← hpa, ← hqb] at hlarge
  have hsize : bitsize (p * q) = 2 * bits := by omega
  have hp : p.Prime := hpa ▸ hnp _
  have hq : q.Prime := hqb ▸ hnp _
  obtain ⟨p', q', hsw, hp', hq', hlt, hmul⟩ : ∃ p' q', (if q < p then (q, p) else (p, q)) = (p', q') ∧ p'.Prime ∧ q'.Prime ∧
      p' ≤ q' ∧ p * q = p' * q' := by
    by_cases hc : q < p
    · exact ⟨q, p, if_pos hc, hq, hp, by omega, Nat.mul_comm _ _⟩
    · exact ⟨p, q, if_neg hc, hp, hq, by omega, rfl⟩
  dsimp only at h2
  rw [hsw] at h2
  dsimp only at h2
  rcases r with _ | ⟨e0, r⟩
  · simp at h2
  · dsimp only at h2
    obtain ⟨e, he, h3⟩ := Out.bind_eq_ok.mp h2
    cases h3
    have htot : 0 < (p' - 1) * (q' - 1) := Nat.mul_pos (by have := hp'.two_le; omega) (by have := hq'.two_le; omega)
    have hodd0 : (if e0 % 2 = 0 then e0 + 1 else e0) % 2 = 1 := by split <;> omega
    have hexp : ∀ fuel x r, rsaExponent ((p' - 1) * (q' - 1)) fuel x = .ok r → x % 2 = 1 →
        Nat.gcd ((p' - 1) * (q' - 1)) r = 1 ∧ r % 2 = 1 := by
      intro fuel
      induction fuel with
      | zero => intro x r hr; simp [rsaExponent] at hr
      | succ fuel ih =>
        intro x r hr hx
        rw [rsaExponent] at hr
        split at hr
        · exact ih _ _ hr (by omega)
        · rename_i hg; cases hr; exact ⟨by simpa using hg, hx⟩
    obtain ⟨hg, hodd⟩ := hexp _ _ _ he hodd0
    have hq2 : 2 ≤ q' := hq'.two_le
    refine ⟨_, _, _, p', q', _, rfl, hsize, hp', hq', hlt, hmul, hodd, invert_spec htot (by rwa [Nat.gcd_comm]), fun hne => ?_⟩
    rw [invert_spec hq'.pos ((Nat.coprime_primes hp' hq').mpr (by omega)), Nat.mod_eq_of_lt (by omega)]

/-- Nothing keeps the primes apart: if the same number is drawn twice and the square has the right size, the key has twice the same prime (without the
option, another pair is drawn: C23). -/
theorem C72_rsa_square_fails {np : Nat → Nat} (hnp : ∀ a, (np a).Prime) {bits : Nat} (h : GpgSize (2 * bits)) (a e : Nat) (more : List Nat)
    (hs : bitsize (np (2 ^ (bits - 1) + a) * np (2 ^ (bits - 1) + a)) = 2 * bits) :
    ∃ e' d u, let p := np (2 ^ (bits - 1) + a)
      rsaKeygenGpg np bits (a :: a :: e :: more) = .ok [p * p, e', d, p, p, u] := by
  have hb : bits < 2 ^ 31 := by have := h.2.1; omega
  generalize hp' : np (2 ^ (bits - 1) + a) = p at hs
  have hp : p.Prime := hp' ▸ hnp _
  have hp2 := hp.two_le
  have hne2 : p ≠ 2 := by
    rintro rfl
    have h1 := h.1
    have : bitsize (2 * 2) = 3 := by decide +kernel
    omega
  have heven : (p - 1) * (p - 1) % 2 = 0 := by
    rcases hp.eq_two_or_odd with h | h
    · omega
    · rw [Nat.mul_mod, show (p - 1) % 2 = 0 by omega]
  generalize htot : (p - 1) * (p - 1) = tot at heven
  have htot0 : 0 < tot := by rw [← htot]; exact Nat.mul_pos (by omega) (by omega)
  generalize hee : (if e % 2 = 0 then e + 1 else e) = e1
  have he1 : e1 % 2 = 1 := by rw [← hee]; split <;> omega
  obtain ⟨r, hr, _⟩ := rsaExponent_ok (tot := tot) (tot * e1 + 2) e1 (tot * e1 + 1) he1
    (by simp) (by rw [Nat.add_mod, Nat.mul_mod, heven]; simp)
    (by have := Nat.le_mul_of_pos_left e1 htot0; omega) (by omega)
  refine ⟨r, invert r tot, invert p p, ?_⟩
  simp only
  rw [rsaKeygenGpg]
  simp only
  rw [if_neg (fun hc => (nbitsize_iff hb).mp hc h), show bits * 2 % 2 ^ 32 = 2 * bits by omega, rsaPrimesGpg]
  simp only [hp']
  rw [if_pos (Or.inl hs), Out.ok_bind]
  simp only [Nat.lt_irrefl, if_false]
  rw [hee, htot, hr]
  rfl

/-- A size of `2 ^ 31` and more is doubled in 32 bits, so some such sizes are taken for small ones; then no pair of primes is ever accepted. -/
theorem C72_rsa_wrap_diverges {np : Nat → Nat} (hgt : ∀ a, a < np a) {bits : Nat} (hb : 2 ^ 31 ≤ bits) (h : GpgSize (2 * bits % 2 ^ 32))
    (draws : List Nat) : rsaKeygenGpg np bits draws = .diverge := by
  obtain ⟨g1, g2, g3⟩ := h
  rw [rsaKeygenGpg]
  simp only
  rw [Nat.mul_comm bits 2, if_neg (by omega)]
  generalize hnb : 2 * bits % 2 ^ 32 = nb at g1 g2 g3
  have hd : rsaPrimesGpg np bits nb draws = .diverge := by
    induction draws using rsaPrimesGpg.induct (np := np) (bits := bits) (nbitsize := nb) with
    | case1 a b l p q hs =>
      have := rsaPrimesGpg_large hgt (bits := bits) (a := a) (b := b) (by omega)
      change bitsize (np (2 ^ (bits - 1) + a) * np (2 ^ (bits - 1) + b)) = nb ∨ bitsize (np (2 ^ (bits - 1) + a) * np (2 ^ (bits - 1) + b)) = nb - 8 at hs
      omega
    | case2 a b l p q hs ih => rw [rsaPrimesGpg, if_neg hs]; exact ih
    | case3 l hl =>
      rcases l with _ | ⟨a, _ | ⟨b, l⟩⟩
      · rfl
      · rfl
      · exact absurd rfl (hl a b l)
  rw [hd]
  rfl

/-! ## Examples -/

section
/-- An Ed25519 key and an ECDH key on P-256, with the sizes of real ones. -/
def edKey : EcKey := ⟨0x5f000000, .eddsa, [0x2b, 6, 1, 4, 1, 0xda, 0x47, 0x0f, 1], 2 ^ 262 + 12345⟩
def dhKey : EcKey := ⟨0x5f000001, .ecdh 8 9, [0x2a, 0x86, 0x48, 0xce, 0x3d, 3, 1, 7], 2 ^ 514 + 99⟩

example : edKey.Fits ∧ edKey.curve ∈ curves.map oid := ⟨⟨by decide +kernel, by decide +kernel, by decide +kernel⟩, by decide +kernel⟩
example : dhKey.Fits ∧ dhKey.curve ∈ curves.map oid := ⟨⟨by decide +kernel, by decide +kernel, by decide +kernel⟩, by decide +kernel⟩
example : GpgKey.readAt ⟨1 :: dhKey.body ++ [7], 1, dhKey.body.length, false⟩ =
    .ok ⟨⟨4, 0x5f000001, 18, [2 ^ 514 + 99], 0⟩, dhKey.curve, 3, 8, 9⟩ := by decide +kernel
example : GpgKey.rawCommon ⟨⟨4, 0x5f000001, 18, [2 ^ 514 + 99], 0⟩, dhKey.curve, 3, 8, 9⟩ = .ok dhKey.body := by decide +kernel
/-- secp256k1 is not in the table. -/
example : [0x2b, 0x81, 4, 0, 10] ∉ curves.map oid := by decide +kernel
example : GpgSize (2 * 1024) ∧ ¬ GpgSize (2 * 500) ∧ ¬ GpgSize (2 * 1000) ∧ GpgSize (2 * (2 ^ 31 + 512) % 2 ^ 32) := by
  unfold GpgSize; decide +kernel
example : gpgReadSigMpi 22 ([7] ++ mpiOctets 1000 ++ mpiOctets (2 ^ 255 + 3) ++ [9, 9]) 1 = .ok ([1000, 2 ^ 255 + 3], 39) := by decide +kernel
/-- A function as the theorems about key generation want it exists. -/
noncomputable example : ∃ np : Nat → Nat, (∀ a, (np a).Prime) ∧ ∀ a, a < np a :=
  ⟨fun a => (Nat.exists_infinite_primes (a + 1)).choose, fun a => (Nat.exists_infinite_primes (a + 1)).choose_spec.2,
    fun a => (Nat.exists_infinite_primes (a + 1)).choose_spec.1⟩
end

end OpenPGP
