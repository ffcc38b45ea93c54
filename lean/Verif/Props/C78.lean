import Verif.Spec.SigNumbers
import Verif.Props.C53Nonce
import Verif.Props.C23
import Verif.Lemmas.Verify
import Verif.Model.Sign
import Verif.Props.C36Limits

/-!
# C78: the numbers of a signature are those of RFC 4880

`Sign::with_pka` and `Verify::with_pka`: what is signed, and what is taken as a good signature, against RFC 3447 and FIPS 186. True for RSA moduli of a multiple of eight bits and for DSA with digests
not longer than `q`; false otherwise.
-/
namespace OpenPGP

theorem bitsize_size {n : Nat} (h : n ≠ 0) : bitsize n = n.size := by
  unfold bitsize
  apply le_antisymm
  · exact Nat.lt_size.mpr (Nat.log2_self_le h)
  · exact Nat.size_le.mpr Nat.lt_log2_self

/-- The library's encoding is the RFC's, of its own length. -/
theorem emsa_rfc {h : UInt8} {n k : Nat} {digest d : Bytes} (hn : hashLen h = some n) (hd : digest.length = n) (hp : derPrefix h = some d)
    (hk : d.length + 3 + n ≤ k) (hk2 : k < 2 ^ 32) : emsa h digest k = .ok (rfcEncoded (d ++ digest) k) := by
  rw [C19_encode hn hp hk hk2, rfcEncoded]
  congr 1
  simp only [List.length_append, hd]
  rw [show k - (d.length + n) - 3 = k - 3 - d.length - n by omega]
  simp

theorem rfcEncoded_num {T : Bytes} {k : Nat} (h : T.length + 3 ≤ k) :
    256 ^ (k - 2) ≤ num (rfcEncoded T k) ∧ num (rfcEncoded T k) < 2 * 256 ^ (k - 2) := by
  have hl : (List.replicate (k - T.length - 3) (0xff : UInt8) ++ 0 :: T).length = k - 2 := by simp; omega
  have := num_lt (List.replicate (k - T.length - 3) (0xff : UInt8) ++ 0 :: T)
  rw [rfcEncoded, num_cons, num_cons, hl] at *
  rw [hl] at this
  have h0 : (0 : UInt8).toNat = 0 := rfl
  have h1 : (1 : UInt8).toNat = 1 := rfl
  rw [h0, h1]
  omega

/-! ## RSA -/

theorem verifyPka_rsa {n e s : Nat} {hash pka : UInt8} {digest em : Bytes} (hpka : pka = 1 ∨ pka = 3) (hodd : n % 2 = 1)
    (hem : emsa hash digest (bitsize n / 8) = .ok em) (hne : em ≠ []) :
    verifyPka digest hash pka [n, e] [s] = .ok (Verdict.ofBool (decide (s ^ e % n = num em))) := by
  rw [verifyPka, if_pos hpka]
  simp only [vecAt, List.getElem?_cons_zero, Out.ok_bind, hem, rsaVerify, rawtompi_eq, if_neg hne, C23_verify_iff hodd, Out.pure_eq]

/-- For a modulus of a multiple of eight bits with room for the digest, `Verify::with_pka` accepts exactly the numbers that are, modulo `n`, good signatures of RFC 3447. -/
theorem C78_rsa_verify {n e s len : Nat} {hash pka : UInt8} {digest d : Bytes} (hpka : pka = 1 ∨ pka = 3) (hodd : n % 2 = 1) (hl : hashLen hash = some len)
    (hd : digest.length = len) (hp : derPrefix hash = some d) (h8 : n.size % 8 = 0) (hroom : d.length + len + 11 ≤ n.size / 8) (hbig : n.size < 2 ^ 35) :
    ∃ v, verifyPka digest hash pka [n, e] [s] = .ok v ∧ v ≠ .error ∧ (v = .yes ↔ RsaGood hash digest n e (s % n)) := by
  have hn0 : n ≠ 0 := by omega
  have hk : rfcModulusOctets n = n.size / 8 := by unfold rfcModulusOctets; omega
  have hem : emsa hash digest (bitsize n / 8) = .ok (rfcEncoded (d ++ digest) (n.size / 8)) := by
    rw [bitsize_size hn0]; exact emsa_rfc hl hd hp (by omega) (by omega)
  refine ⟨_, verifyPka_rsa hpka hodd hem (by simp [rfcEncoded]), by unfold Verdict.ofBool; split <;> simp, ?_⟩
  have hm : s ^ e % n = (s % n) ^ e % n := Nat.pow_mod _ _ _
  constructor
  · intro h
    have h' : s ^ e % n = num (rfcEncoded (d ++ digest) (n.size / 8)) := by
      by_contra hc
      rw [decide_eq_false hc] at h
      simp [Verdict.ofBool] at h
    exact ⟨d, hp, Nat.mod_lt _ (by omega), by rw [hk, List.length_append, hd]; exact hroom, by rw [hk, ← h', hm]⟩
  · rintro ⟨d', hp', -, -, h⟩
    rw [hp] at hp'; cases hp'
    rw [hk, ← hm] at h
    rw [decide_eq_true h]; rfl

/-- What the library signs with a key that has room for the digest. -/
theorem rsa_signs {pub pri : List Nat} {n e len : Nat} {hash : UInt8} {digest d : Bytes} (hk : RsaKey pub pri) (hpub : pub = [n, e])
    (hl : hashLen hash = some len) (hd : digest.length = len) (hp : derPrefix hash = some d) (hroom : d.length + len + 3 ≤ n.size / 8) (hbig : n.size < 2 ^ 35) :
    n % 2 = 1 ∧ ∃ s, s < n ∧ s ^ e % n = num (rfcEncoded (d ++ digest) (n.size / 8)) ∧
      (∀ draws pka, pka = 1 ∨ pka = 2 → signPka draws digest pka pri pub hash = .ok [s]) ∧ ∀ pka, pka = 1 ∨ pka = 3 → verifyPka digest hash pka pub [s] = .ok .yes := by
  subst hpub
  have hn0 : n ≠ 0 := by rintro rfl; simp [Nat.size_zero] at hroom
  have hem : emsa hash digest (bitsize n / 8) = .ok (rfcEncoded (d ++ digest) (n.size / 8)) := by
    rw [bitsize_size hn0]; exact emsa_rfc hl hd hp (by omega) (by omega)
  have hlt : num (rfcEncoded (d ++ digest) (n.size / 8)) < n := by
    have h1 := (rfcEncoded_num (T := d ++ digest) (k := n.size / 8) (by rw [List.length_append]; omega)).2
    have h2 : 2 ^ (n.size - 1) ≤ n := Nat.lt_size.mp (by omega)
    refine lt_of_lt_of_le h1 (le_trans ?_ h2)
    rw [show (256 : Nat) = 2 ^ 8 by norm_num, ← Nat.pow_mul, ← Nat.pow_succ']
    exact Nat.pow_le_pow_right (by norm_num) (by omega)
  obtain ⟨-, s, hs, hsn, hv⟩ := C23_roundtrip hk (n := n) (by simp) hlt
  have hodd : n % 2 = 1 := by
    obtain ⟨p, q, _, _, _, hp, hq, -, h2, h2', he, -⟩ := hk
    rw [(List.cons.inj he).1]; exact mod_odd_mul hp hq h2 h2'
  have hne : rfcEncoded (d ++ digest) (n.size / 8) ≠ [] := by simp [rfcEncoded]
  rw [C23_verify_iff hodd] at hv
  have hv' := of_decide_eq_true (Out.ok.inj hv)
  refine ⟨hodd, s, hsn, hv', fun draws pka hpka => ?_, fun pka hpka => ?_⟩
  · rw [signPka, if_pos hpka]
    simp only [vecAt, List.getElem?_cons_zero, Out.ok_bind, hem, rsaSign, rawtompi_eq, if_neg hne, hs, Out.pure_eq]
  · rw [verifyPka_rsa hpka hodd hem hne, decide_eq_true hv']; rfl

/-- With such a modulus `Sign::with_pka` gives the good signature. -/
theorem C78_rsa_sign {pub pri : List Nat} {n e len : Nat} {hash : UInt8} {digest d : Bytes} (hk : RsaKey pub pri) (hpub : pub = [n, e])
    (hl : hashLen hash = some len) (hd : digest.length = len) (hp : derPrefix hash = some d) (h8 : n.size % 8 = 0) (hroom : d.length + len + 11 ≤ n.size / 8) (hbig : n.size < 2 ^ 35) :
    ∃ s, (∀ draws pka, pka = 1 ∨ pka = 2 → signPka draws digest pka pri pub hash = .ok [s]) ∧ RsaGood hash digest n e s := by
  obtain ⟨-, s, hsn, he, hs, -⟩ := rsa_signs hk hpub hl hd hp (by omega) hbig
  have hk8 : rfcModulusOctets n = n.size / 8 := by unfold rfcModulusOctets; omega
  exact ⟨s, hs, d, hp, hsn, by rw [hk8, List.length_append, hd]; exact hroom, by rw [hk8]; exact he⟩

/-- For any other modulus the encoded digest is an octet shorter than the RFC has it: no number is taken for a good signature by both. What others sign the library refuses, and what it accepts is refused by
others. -/
theorem C78_rsa_never_both_fails {n e s len : Nat} {hash pka : UInt8} {digest : Bytes} (hpka : pka = 1 ∨ pka = 3) (hodd : n % 2 = 1) (hl : hashLen hash = some len)
    (hd : digest.length = len) (h8 : n.size % 8 ≠ 0) (hbig : n.size < 2 ^ 35) :
    ¬ (verifyPka digest hash pka [n, e] [s] = .ok .yes ∧ RsaGood hash digest n e (s % n)) := by
  rintro ⟨hv, d, hp, hs, hr, he⟩
  have hn0 : n ≠ 0 := by omega
  by_cases hroom : d.length + 3 + len ≤ n.size / 8
  · have hk : rfcModulusOctets n = n.size / 8 + 1 := by unfold rfcModulusOctets; omega
    have hem : emsa hash digest (bitsize n / 8) = .ok (rfcEncoded (d ++ digest) (n.size / 8)) := by
      rw [bitsize_size hn0]; exact emsa_rfc hl hd hp (by omega) (by omega)
    rw [verifyPka_rsa hpka hodd hem (by simp [rfcEncoded])] at hv
    have hq : s ^ e % n = num (rfcEncoded (d ++ digest) (n.size / 8)) := by
      by_contra hc
      rw [decide_eq_false hc] at hv
      simp [Verdict.ofBool] at hv
    have h1 := (rfcEncoded_num (T := d ++ digest) (k := n.size / 8) (by rw [List.length_append]; omega)).2
    have h2 := (rfcEncoded_num (T := d ++ digest) (k := n.size / 8 + 1) (by rw [List.length_append]; omega)).1
    rw [hk, ← Nat.pow_mod, hq] at he
    rw [← he, show n.size / 8 + 1 - 2 = n.size / 8 - 2 + 1 by omega, Nat.pow_succ] at h2
    omega
  · have ht := C19_too_short_throws (k := bitsize n / 8) (digest := digest) hl hp (by rw [bitsize_size hn0]; omega)
    rw [verifyPka, if_pos hpka] at hv
    simp [vecAt, ht] at hv

/-- With a key of any other size the library signs, its signatures verify with it, and nobody else takes them for good. -/
theorem C78_rsa_size_fails {pub pri : List Nat} {n e len : Nat} {hash : UInt8} {digest d : Bytes} (hk : RsaKey pub pri) (hpub : pub = [n, e])
    (hl : hashLen hash = some len) (hd : digest.length = len) (hp : derPrefix hash = some d) (h8 : n.size % 8 ≠ 0) (hroom : d.length + len + 3 ≤ n.size / 8) (hbig : n.size < 2 ^ 35) :
    ∃ s, (∀ draws pka, pka = 1 ∨ pka = 2 → signPka draws digest pka pri pub hash = .ok [s]) ∧ (∀ pka, pka = 1 ∨ pka = 3 → verifyPka digest hash pka pub [s] = .ok .yes) ∧
      ¬ RsaGood hash digest n e s := by
  obtain ⟨hodd, s, hsn, -, hs, hv⟩ := rsa_signs hk hpub hl hd hp hroom hbig
  refine ⟨s, hs, hv, fun hg => C78_rsa_never_both_fails (Or.inl rfl) hodd hl hd h8 hbig ⟨hpub ▸ hv 1 (Or.inl rfl), ?_⟩⟩
  rwa [Nat.mod_eq_of_lt hsn]

/-- The RFC wants eight octets of padding. The library takes less: keys for which no number is a good signature sign, and their signatures verify. -/
theorem C78_rsa_room_fails {pub pri : List Nat} {n e len : Nat} {hash : UInt8} {digest d : Bytes} (hk : RsaKey pub pri) (hpub : pub = [n, e])
    (hl : hashLen hash = some len) (hd : digest.length = len) (hp : derPrefix hash = some d) (hroom : d.length + len + 3 ≤ n.size / 8) (hbig : n.size < 2 ^ 35)
    (hless : (n.size + 7) / 8 < d.length + len + 11) :
    (∃ s, (∀ draws pka, pka = 1 ∨ pka = 2 → signPka draws digest pka pri pub hash = .ok [s]) ∧ ∀ pka, pka = 1 ∨ pka = 3 → verifyPka digest hash pka pub [s] = .ok .yes) ∧
      ∀ s, ¬ RsaGood hash digest n e s := by
  obtain ⟨-, s, -, -, hs, hv⟩ := rsa_signs hk hpub hl hd hp hroom hbig
  refine ⟨⟨s, hs, hv⟩, ?_⟩
  rintro s ⟨d', hp', -, h, -⟩
  rw [hp] at hp'; cases hp'
  rw [List.length_append, rfcModulusOctets] at h
  omega

/-- Numbers out of range are accepted, which are no good signatures. -/
theorem C78_rsa_range_fails {n e s : Nat} {hash pka : UInt8} {digest : Bytes} (hpka : pka = 1 ∨ pka = 3) (hodd : n % 2 = 1)
    (h : verifyPka digest hash pka [n, e] [s] = .ok .yes) (j : Nat) (hj : 0 < j) :
    verifyPka digest hash pka [n, e] [s + j * n] = .ok .yes ∧ ¬ RsaGood hash digest n e (s + j * n) := by
  constructor
  · rw [← h, verifyPka, verifyPka, if_pos hpka, if_pos hpka]
    simp only [vecAt, List.getElem?_cons_zero, Out.ok_bind, rsaVerify, C23_verify_iff hodd]
    have : (s + j * n) ^ e % n = s ^ e % n := by rw [Nat.pow_mod, Nat.add_mul_mod_self_right, ← Nat.pow_mod]
    rw [this]
  · rintro ⟨-, -, hs, -⟩
    have := Nat.le_mul_of_pos_left n hj
    omega

/-! ## DSA -/

theorem rfcDsaNumber_short {digest : Bytes} {q : Nat} (h : 8 * digest.length ≤ q.size) : rfcDsaNumber digest q = num digest := by
  rw [rfcDsaNumber, Nat.sub_eq_zero_of_le h, Nat.pow_zero, Nat.div_one]

/-- For digests not longer than `q` and second values in range, `Verify::with_pka` accepts exactly the good signatures. -/
theorem C78_dsa_verify_partial {p q g y r s : Nat} {hash : UInt8} {digest : Bytes} (hp : p % 2 = 1) (hq : q.Prime) (hs : 0 < s) (hsq : s < q) (hne : digest ≠ [])
    (hl : 8 * digest.length ≤ q.size) :
    ∃ v, verifyPka digest hash 17 [p, q, g, y] [r, s] = .ok v ∧ v ≠ .error ∧ (v = .yes ↔ DsaGood digest p q g y r s) := by
  obtain ⟨b, hb, hi⟩ := C25_verify_partial (g := g) (y := y) (m := num digest) (r := r) hp hq hs hsq
  refine ⟨.ofBool b, ?_, by cases b <;> simp [Verdict.ofBool], ?_⟩
  · rw [verifyPka, if_neg (by decide), if_pos rfl]
    simp only [dsaVerify, rawtompi_eq, if_neg hne, Out.ok_bind, hb, Out.pure_eq]
  · rw [DsaGood, rfcDsaNumber_short hl, ← hi]
    cases b <;> simp [Verdict.ofBool]

/-- For such digests everything `Sign::with_pka` gives is a good signature. -/
theorem C78_dsa_sign_partial {pub pri draws sig : List Nat} {hash : UInt8} {digest : Bytes} (hk : DsaKey pub pri) (h : signPka draws digest 17 pri pub hash = .ok sig)
    {q : Nat} (hq : pub[1]? = some q) (hl : 8 * digest.length ≤ q.size) :
    ∃ p g y r s, pub = [p, q, g, y] ∧ sig = [r, s] ∧ DsaGood digest p q g y r s := by
  rw [signPka, if_neg (by decide), if_pos rfl, dsaSign, rawtompi_eq] at h
  split at h
  · cases h
  · obtain ⟨p, q', g, y, r, s, rfl, rfl, hv, -⟩ := C25_sign_verifies hk h
    cases hq
    exact ⟨p, g, y, r, s, rfl, rfl, by rw [DsaGood, rfcDsaNumber_short hl]; exact hv⟩

/-- For all digests: the library's signature is the one of FIPS 186 with the same nonce exactly if the whole digest and its leftmost bits are the same number modulo `q`. -/
theorem C78_dsa_made_iff {p q g y x k r s : Nat} {hash : UInt8} {digest : Bytes} (hk : DsaKey [p, q, g, y] [x]) (hk0 : 0 < k) (hkq : k < q)
    (h : signPka [k] digest 17 [x] [p, q, g, y] hash = .ok [r, s]) :
    DsaMade digest p q g x k r s ↔ num digest % q = rfcDsaNumber digest q % q := by
  obtain ⟨p', q', g', y', x', hp, h2, hq, -, he, hx, -⟩ := hk
  cases he; cases hx
  rw [signPka, if_neg (by decide), if_pos rfl, dsaSign, rawtompi_eq] at h
  split at h
  · cases h
  rename_i hne
  obtain ⟨i, s', he, hi, hs, hr0, hs0⟩ := dsaSign_single (y := y) (odd_of_prime hp h2) hq.pos h
  rw [Nat.mod_eq_of_lt hkq] at he hi hs hr0
  cases he
  have hsq : s < q := by rw [hs]; exact Nat.mod_lt _ hq.pos
  have hc := prime_coprime_of_lt hq hk0 hkq
  have hik : k * i % q = 1 := by
    have := invert_spec hq.pos hc
    rwa [← hi, Nat.mod_eq_of_lt hq.one_lt] at this
  have hks : k * s % q = (num digest + x * (g ^ k % p % q)) % q := by
    rw [hs, Nat.mul_mod, Nat.mod_mod, ← Nat.mul_mod, ← Nat.mul_assoc, Nat.mul_mod, hik, Nat.one_mul, Nat.mod_mod]
  constructor
  · rintro ⟨-, -, -, -, h', -⟩
    rw [hks] at h'
    exact Nat.ModEq.add_right_cancel' _ h'
  · intro h'
    exact ⟨hk0, hkq, rfl, hsq, by rw [hks]; exact Nat.ModEq.add_right _ h', hr0, hs0⟩

/-- With a key whose `q` is shorter than the digest there are digests whose signature, whatever the nonce, is not the one of FIPS 186. -/
theorem C78_dsa_long_fails {p q g y x len : Nat} {hash : UInt8} (hk : DsaKey [p, q, g, y] [x]) (hl : q.size < 8 * len) :
    ∃ digest : Bytes, digest.length = len ∧ ∀ k r s, 0 < k → k < q → signPka [k] digest 17 [x] [p, q, g, y] hash = .ok [r, s] → ¬ DsaMade digest p q g x k r s := by
  have hq : q.Prime := by
    obtain ⟨p', q', g', y', x', -, -, hq, -, he, -⟩ := hk
    cases he; exact hq
  have hlen : 0 < len := by omega
  have hnum : num (be len 1) = 1 := by
    rw [num_be]; exact Nat.mod_eq_of_lt (Nat.one_lt_pow (by omega) (by norm_num))
  refine ⟨be len 1, be_length _ _, fun k r s h0 h1 h hm => ?_⟩
  have := (C78_dsa_made_iff hk h0 h1 h).mp hm
  rw [rfcDsaNumber, hnum, be_length, Nat.div_eq_of_lt (Nat.one_lt_pow (by omega) (by norm_num)), Nat.zero_mod, Nat.mod_eq_of_lt hq.one_lt] at this
  omega

theorem size_11 : Nat.size 11 = 4 := le_antisymm (Nat.size_le.mpr (by norm_num)) (Nat.lt_size.mpr (by norm_num))

/-- A key, a digest of the length of SHA-1 and a nonce: what the library signs is no good signature, and the good signature, the one of FIPS 186 with the nonce, is refused by the library. -/
theorem C78_dsa_fails : ∃ p q g y x k r s s' : Nat, ∃ digest : Bytes, DsaKey [p, q, g, y] [x] ∧ digest.length = 20 ∧
    signPka [k] digest 17 [x] [p, q, g, y] 2 = .ok [r, s] ∧ ¬ DsaGood digest p q g y r s ∧
    DsaMade digest p q g x k r s' ∧ DsaGood digest p q g y r s' ∧ verifyPka digest 2 17 [p, q, g, y] [r, s'] = .ok .no := by
  have hz : rfcDsaNumber (be 20 3) 11 = 0 := by rw [rfcDsaNumber, size_11]; decide +kernel
  refine ⟨23, 11, 4, 8, 7, 5, 1, 2, 8, be 20 3, ⟨23, 11, 4, 8, 7, by norm_num, by decide, by norm_num, by decide, rfl, rfl, by decide⟩, rfl, by decide +kernel, ?_, ?_, ?_, by decide +kernel⟩
  · rw [DsaGood, hz]; unfold DsaValid; decide +kernel
  · rw [DsaMade, hz]; decide +kernel
  · rw [DsaGood, hz]; unfold DsaValid; decide +kernel

/-! ### Keys of such sizes -/

/-- The size of the key of C36. -/
theorem c78_648 : Nat.size (mersenne 521 * mersenne 127) = 648 :=
  le_antisymm (Nat.size_le.mpr (by decide +kernel)) (Nat.lt_size.mpr (by decide +kernel))

example : ∃ s, (∀ draws pka, pka = 1 ∨ pka = 2 → signPka draws (List.replicate 20 7) pka c36Pri c36Pub 2 = .ok [s]) ∧ RsaGood 2 (List.replicate 20 7) (mersenne 521 * mersenne 127) 65537 s :=
  C78_rsa_sign c36_key rfl rfl rfl rfl (by rw [c78_648]) (by rw [c78_648]; decide) (by rw [c78_648]; decide)

/-- A key of 582 bits, six more than a multiple of eight. -/
def c78Pub : List Nat := [mersenne 521 * mersenne 61, 65537]
def c78Pri : List Nat := [2102276334330251906649753493165188079616174064948285236872941698124575370587689334283318390725626884269585153871191016109631808167109919973594485922110759800075140797869033473]

theorem c78_key : RsaKey c78Pub c78Pri :=
  ⟨mersenne 521, mersenne 61, 65537, _, [], lucas_lehmer_sufficiency 521 (by simp) (by norm_num), lucas_lehmer_sufficiency 61 (by simp) (by norm_num), by decide +kernel, by decide +kernel,
    by decide +kernel, rfl, rfl, by decide +kernel⟩

theorem c78_582 : Nat.size (mersenne 521 * mersenne 61) = 582 :=
  le_antisymm (Nat.size_le.mpr (by decide +kernel)) (Nat.lt_size.mpr (by decide +kernel))

example : ∃ s, (∀ draws pka, pka = 1 ∨ pka = 2 → signPka draws (List.replicate 20 7) pka c78Pri c78Pub 2 = .ok [s]) ∧
    (∀ pka, pka = 1 ∨ pka = 3 → verifyPka (List.replicate 20 7) 2 pka c78Pub [s] = .ok .yes) ∧ ¬ RsaGood 2 (List.replicate 20 7) (mersenne 521 * mersenne 61) 65537 s :=
  C78_rsa_size_fails c78_key rfl rfl rfl rfl (by rw [c78_582]; decide) (by rw [c78_582]; decide) (by rw [c78_582]; decide)

/-- Key generation gives such keys: here from the primes above. -/
example (np : Nat → Nat) (h0 : np 0 = mersenne 521) (h1 : np 1 = mersenne 61) :
    rsaKeygen np [0, 1, 65537] = .ok [mersenne 521 * mersenne 61, 65537, invert 65537 ((mersenne 61 - 1) * (mersenne 521 - 1)), mersenne 61, mersenne 521, invert (mersenne 61) (mersenne 521)] := by
  have he : (mersenne 521 = mersenne 61) = False := by simp only [eq_iff_iff, iff_false]; decide +kernel
  have hlt : mersenne 61 < mersenne 521 := by decide +kernel
  have hg : Nat.gcd ((mersenne 61 - 1) * (mersenne 521 - 1)) 65537 = 1 := by decide +kernel
  have hx : ∀ n, rsaExponent ((mersenne 61 - 1) * (mersenne 521 - 1)) (n + 2) 65537 = .ok 65537 := by
    intro n; rw [rsaExponent, if_neg (by rw [hg]; decide)]
  simp only [rsaKeygen, rsaPrimes, h0, h1, he, if_false, Out.ok_bind, hlt, if_true, Nat.reduceMod, Nat.one_ne_zero, hx, Out.pure_eq]

/-- A key of 714 bits has room for SHA-512 with less than eight octets of padding. -/
example : ∃ (pub pri : List Nat) (n e : Nat) (d : Bytes), RsaKey pub pri ∧ pub = [n, e] ∧ derPrefix 10 = some d ∧ d.length + 64 + 3 ≤ n.size / 8 ∧ n.size < 2 ^ 35 ∧ (n.size + 7) / 8 < d.length + 64 + 11 := by
  have hs : Nat.size (mersenne 607 * mersenne 107) = 714 := le_antisymm (Nat.size_le.mpr (by decide +kernel)) (Nat.lt_size.mpr (by decide +kernel))
  exact ⟨[mersenne 607 * mersenne 107, 65537], [47289215212735402627900984145268285036370989859335261083077888752684404671908755416283931191287367027380876111785958003967753474863161887562032812607657615660571680113357461070423011514464602545979943910078452412901], _, _, _,
    ⟨mersenne 607, mersenne 107, 65537, _, [], lucas_lehmer_sufficiency 607 (by simp) (by norm_num), c26_primes.2, by decide +kernel, by decide +kernel, by decide +kernel, rfl, rfl, by decide +kernel⟩,
    rfl, rfl, by rw [hs]; decide, by rw [hs]; decide, by rw [hs]; decide⟩

/-- A DSA key whose `q` has nine bits, a digest of eight, and its signature. -/
example : DsaKey [1543, 257, 64, 410] [100] ∧ 8 * [(200 : UInt8)].length ≤ Nat.size 257 ∧ signPka [77] [200] 17 [100] [1543, 257, 64, 410] 2 = .ok [185, 96] :=
  ⟨⟨1543, 257, 64, 410, 100, by norm_num, by decide, by norm_num, by decide +kernel, rfl, rfl, by decide +kernel⟩,
    le_of_lt (Nat.lt_size.mpr (by norm_num)), by decide +kernel⟩

end OpenPGP
