import Verif.Lemmas.KeyPkt

/-!
# C11: public key packets survive write and read

Version 4 in full. Version 3 (and 2) keys survive exactly when both octets of their expiry (in days) are below 128:
otherwise the sign extension of `char` gives another expiry (`C11_v3_expire_fails`).
-/
namespace OpenPGP
open KeyPkt

/-- A version 4 public key or subkey packet with the MPIs of its algorithm (RSA 2, DSA 4, ElGamal 3), each of at most
65528 bits, is read back as the same object wherever it stands in the input. -/
theorem C11_v4 (k : KeyPkt) (h : k.wfV4) (data : Bytes) (pos : Nat) (rest : Bytes)
    (hd : data.drop pos = k.rawCommon ++ rest) :
    KeyPkt.readAt ⟨data, pos, k.rawCommon.length, false⟩ = .ok k := by
  simp only [KeyPkt.readAt, tagRead]
  rw [if_neg (rawCommon_ne_nil k), readCommon_v4 k h hd]
  simp

/-- **Which keys these are**, without the tables of the code: version 4, two numbers for RSA (1, 2, 3), three for ElGamal (16), four for DSA (17), of at most 65528 bits, a time of 32
bits and no expiry of its own; every other algorithm is refused. -/
theorem C11_prescribed (k : KeyPkt) : k.wfV4 ↔
    k.version = 4 ∧ (((k.pka = 1 ∨ k.pka = 2 ∨ k.pka = 3) ∧ k.mpi.length = 2) ∨ (k.pka = 16 ∧ k.mpi.length = 3) ∨ (k.pka = 17 ∧ k.mpi.length = 4)) ∧
      k.time < 2 ^ 32 ∧ (∀ a ∈ k.mpi, a < 2 ^ 65528) ∧ k.expire = 0 := by
  have key : ∀ p : UInt8, ∀ n, mpiCount p = some n ↔ ((p = 1 ∨ p = 2 ∨ p = 3) ∧ n = 2) ∨ (p = 16 ∧ n = 3) ∨ (p = 17 ∧ n = 4) := by
    intro p n
    unfold mpiCount isRSA
    constructor
    · intro h
      split_ifs at h with h1 h2 h3
      · simp only [Bool.or_eq_true, beq_iff_eq] at h1
        exact .inl ⟨by tauto, (Option.some.inj h).symm⟩
      · exact .inr (.inr ⟨h2, (Option.some.inj h).symm⟩)
      · exact .inr (.inl ⟨h3, (Option.some.inj h).symm⟩)
    · rintro (⟨rfl | rfl | rfl, rfl⟩ | ⟨rfl, rfl⟩ | ⟨rfl, rfl⟩) <;> rfl
  have hb : ∀ b a, bitsize a ≤ b + 1 ↔ a < 2 ^ (b + 1) := by
    intro b a
    unfold bitsize
    rcases Nat.eq_zero_or_pos a with rfl | ha
    · exact ⟨fun _ => Nat.two_pow_pos _, fun _ => by simp⟩
    · rw [← Nat.log2_lt (by omega)]
      omega
  unfold wfV4
  rw [key]
  simp only [hb 65527]

/-- A DSA key. -/
def c11Dsa : KeyPkt := ⟨4, 1500000000, 17, [0xffee, 0xd1, 5, 0x1234], 0⟩

example : c11Dsa.wfV4 := ⟨rfl, by decide, by decide, by decide, rfl⟩

/-- Version 2 and 3 keys: everything but the expiry is always restored, and the expiry exactly when neither of its
octets is 128 or more. -/
theorem C11_v3_partial (k : KeyPkt) (h : k.wfV3) (data : Bytes) (pos : Nat) (rest : Bytes)
    (hd : data.drop pos = k.rawCommon ++ rest) :
    ∃ k', KeyPkt.readAt ⟨data, pos, k.rawCommon.length, false⟩ = .ok k' ∧
      k'.version = k.version ∧ k'.time = k.time ∧ k'.pka = k.pka ∧ k'.mpi = k.mpi ∧
      (k' = k ↔ k.expire / 256 < 128 ∧ k.expire % 256 < 128) := by
  refine ⟨{ k with expire := expireOf (UInt8.ofNat (k.expire / 256)) (UInt8.ofNat k.expire) }, ?_, rfl, rfl, rfl, rfl, ?_⟩
  · simp only [KeyPkt.readAt, tagRead]
    rw [if_neg (rawCommon_ne_nil k), readCommon_v3 k h hd]
    simp
  · constructor
    · intro e
      by_contra hc
      exact expireOf_large h.2.2.2.2 (by omega) (congrArg KeyPkt.expire e)
    · rintro ⟨h1, h2⟩
      rw [expireOf_small h1 h2]

/-- A version 3 RSA key valid for 100 days, and one valid for 200 days. -/
def c11Old (days : Nat) : KeyPkt := ⟨3, 1000, 1, [0xc0ffee, 17], days⟩

example : (c11Old 100).wfV3 ∧ (c11Old 200).wfV3 := by
  constructor <;> exact ⟨by decide, rfl, by decide, by decide, by decide⟩

/-- Disagreement: a version 3 key that expires after 200 days is read as expiring after 4294967240. -/
theorem C11_v3_expire_fails :
    KeyPkt.readAt ⟨(c11Old 200).rawCommon, 0, (c11Old 200).rawCommon.length, false⟩ =
      .ok (c11Old 4294967240) := by decide +kernel

def c11V3Long : KeyPkt := ⟨3, 1000000000, 1, [0x123456789abcdef, 17], 0⟩

/-- The fingerprint and key ID of what is read are those of what was written (version 4). -/
theorem C11_identity (cr : Crypto) (k k' : KeyPkt) (h : k.wfV4) (pre post : Bytes)
    (hr : KeyPkt.readAt ⟨pre ++ k.rawCommon ++ post, pre.length, k.rawCommon.length, false⟩ = .ok k') :
    k'.fingerprint cr = k.fingerprint cr ∧ k'.keyid cr = k.keyid cr := by
  have := C11_v4 k h (pre ++ k.rawCommon ++ post) pre.length post (by rw [List.append_assoc, List.drop_left])
  rw [this] at hr
  obtain rfl := Out.ok.inj hr
  exact ⟨rfl, rfl⟩

/-- The key ID of a version 4 key is the last eight octets of its 20 octet fingerprint, which is the SHA-1 of 0x99, the
length of the packet body in two octets and the body (RFC 4880, 12.2). -/
theorem C11_keyid (cr : Crypto) (hc : cr.Ok) (k : KeyPkt) (hv : k.version = 4) :
    ∃ f, k.fingerprint cr = .ok f ∧ f.length = 20 ∧
      f = cr.hash 2 (0x99 :: (be 2 k.rawCommon.length ++ k.rawCommon)) ∧
      k.keyid cr = .ok (f.drop 12) ∧ (f.drop 12).length = 8 := by
  have hf : k.fingerprint cr = .ok (cr.hash 2 (0x99 :: (be 2 k.rawCommon.length ++ k.rawCommon))) := by
    rw [fingerprint, hv, if_neg (by decide), if_pos rfl]; simp
  have hl := hc.hash_len 2 20 (0x99 :: (be 2 k.rawCommon.length ++ k.rawCommon)) rfl
  refine ⟨_, hf, hl, rfl, ?_, by rw [List.length_drop, hl]⟩
  rw [keyid, hv, if_neg (by decide), if_pos rfl, hf, Out.ok_bind, substr, if_neg (by omega), List.take_of_length_le]
  rw [List.length_drop, hl]

example : demoCrypto.Ok ∧ c11Dsa.version = 4 := ⟨demoCrypto_ok, rfl⟩

theorem be_drop (k w v : Nat) : (be (k + w) v).drop k = be w v := by
  induction w generalizing v with
  | zero => simp [be]
  | succ w ih =>
    rw [← Nat.add_assoc, be, be, List.drop_append_of_le_length (by simp), ih]

/-- A version 2 or 3 key: the fingerprint is the MD5 of the octets of its MPIs without their lengths, and the key ID is the low 64 bits
of the modulus (RFC 4880, 12.2), which must be of at least 57 bits. -/
theorem C11_v3_identity (cr : Crypto) (k : KeyPkt) (hv : k.version < 4) :
    k.fingerprint cr = .ok (cr.hash 1 (k.mpi.flatMap fun m => be (m.log2 / 8 + 1) m)) ∧
      ∀ n, k.mpi[0]? = some n → 2 ^ 56 ≤ n → k.keyid cr = .ok (be 8 (n % 2 ^ 64)) := by
  constructor
  · rw [fingerprint, if_pos hv]
    congr 2
  · intro n hn hbig
    have hlog : 56 ≤ n.log2 := (Nat.le_log2 (by omega)).mpr hbig
    have h8 : 8 ≤ n.log2 / 8 + 1 := by omega
    rw [keyid, if_pos hv]
    have hat : vecAt k.mpi 0 = .ok n := by simp [vecAt, hn]
    rw [hat, Out.ok_bind]
    dsimp only
    have hl : subSz (mpiOctets n).length 8 = 2 + (n.log2 / 8 + 1 - 8) := by
      rw [mpiOctets_length, subSz, if_pos (by omega)]; omega
    rw [hl, substr, if_neg (by rw [mpiOctets_length]; omega), show mpiOctets n = be 2 (bitsize n) ++ be (n.log2 / 8 + 1) n from rfl]
    rw [← List.drop_drop, List.drop_left' (by simp)]
    obtain ⟨j, hj⟩ : ∃ j, n.log2 / 8 + 1 = j + 8 := ⟨n.log2 / 8 + 1 - 8, by omega⟩
    rw [hj, Nat.add_sub_cancel, be_drop, List.take_of_length_le (by simp), ← be_mod 8 n]
    norm_num

/-- A version 3 key with a modulus of 60 bits. -/
example : c11V3Long.version < 4 ∧ c11V3Long.mpi[0]? = some 0x123456789abcdef ∧ 2 ^ 56 ≤ 0x123456789abcdef := by decide

/-- Every version 4 packet body of less than 65536 octets determines the hashed octets, and these determine the key:
two different keys have different fingerprint input. -/
theorem C11_fingerprint_input_injective (k l : KeyPkt) (hk : k.wfV4) (hl : l.wfV4)
    (h : (0x99 :: (be 2 k.rawCommon.length ++ k.rawCommon) : Bytes) =
      0x99 :: (be 2 l.rawCommon.length ++ l.rawCommon)) : k = l := by
  have h1 := (List.append_inj (List.cons.inj h).2 (by simp)).2
  have a := C11_v4 k hk k.rawCommon 0 [] (by simp)
  have b := C11_v4 l hl l.rawCommon 0 [] (by simp)
  rw [h1] at a
  exact Out.ok.inj (a.symm.trans b)

end OpenPGP
