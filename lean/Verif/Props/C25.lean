import Verif.Props.C24

/-!
# C25: DSA verifies what it signs, and only in-range signatures

The second half is false of the code, see `C25_forgery_fails`.
-/
namespace OpenPGP

/-- `pub = p, q, g, y` and `pri = x` form a DSA key: `q` prime, `g` of order `q` modulo the odd prime `p`, `y = g^x mod p`. -/
def DsaKey (pub pri : List Nat) : Prop :=
  ∃ p q g y x, p.Prime ∧ p ≠ 2 ∧ q.Prime ∧ g ^ q % p = 1 ∧ pub = [p, q, g, y] ∧ pri = [x] ∧ y = g ^ x % p

/-- FIPS 186: the pair `(r, s)` is a valid signature of `m`. -/
def DsaValid (p q g y m r s : Nat) : Prop :=
  0 < r ∧ r < q ∧ 0 < s ∧ s < q ∧
    ∃ w, w < q ∧ s * w % q = 1 ∧ g ^ (m * w % q) * y ^ (r * w % q) % p % q = r

theorem odd_of_prime {p : Nat} (hp : p.Prime) (h2 : p ≠ 2) : p % 2 = 1 := by
  rcases hp.eq_two_or_odd with h | h
  · exact absurd h h2
  · exact h

/-- Powers of an element of order dividing `q` depend on the exponent modulo `q`. -/
theorem pow_order {g p q : Nat} (hp : 1 < p) (hg : g ^ q % p = 1) {a b : Nat} (h : a % q = b % q) :
    g ^ a ≡ g ^ b [MOD p] := by
  have key : ∀ a, g ^ a ≡ g ^ (a % q) [MOD p] := by
    intro a
    have h1 : g ^ q ≡ 1 [MOD p] := by rw [Nat.ModEq, hg, Nat.mod_eq_of_lt hp]
    have h2 := (h1.pow (a / q)).mul_right (g ^ (a % q))
    rw [← Nat.pow_mul, ← Nat.pow_add, Nat.one_pow, Nat.one_mul, Nat.div_add_mod] at h2
    exact h2
  have h1 := key a
  rw [h] at h1
  exact h1.trans (key b).symm

theorem prime_coprime_of_lt {q s : Nat} (hq : q.Prime) (h0 : 0 < s) (hs : s < q) : Nat.gcd s q = 1 := by
  rw [Nat.gcd_comm]
  refine (Nat.Prime.coprime_iff_not_dvd hq).mpr fun h => ?_
  have := Nat.le_of_dvd h0 h
  omega

/-- What `verify` computes: the first value is in range and the congruence holds for whatever `invert` returns. -/
theorem dsaVerify_iff {p q g y m r s : Nat} (hp : p % 2 = 1) (hq : 0 < q) :
    dsaVerifyInt m [r, s] [p, q, g, y] = .ok (decide (0 < r ∧ r < q ∧
      g ^ (m * invert s q % q) * y ^ (r * invert s q % q) % p % q = r)) := by
  simp only [dsaVerifyInt, vecAt, List.getElem?_cons_zero, List.getElem?_cons_succ, Out.ok_bind, powm_odd hp]
  have hv : ∀ z, z % q < q := fun z => Nat.mod_lt _ hq
  rw [← Nat.mul_mod]
  by_cases h0 : 0 < r
  · by_cases h1 : r < q
    · simp only [h0, h1, decide_true, Bool.and_self, Bool.not_true, Bool.false_and, true_and]
      rw [if_neg (by simp), if_neg (by omega)]
      rfl
    · by_cases h2 : s < q
      · simp only [h0, h1, h2, decide_true, decide_false, Bool.and_self, Bool.and_false, Bool.not_true, Bool.not_false,
          false_and, and_false]
        rw [if_neg (by simp), if_neg (by omega)]
        have := hv (g ^ (m * invert s q % q) * y ^ (r * invert s q % q) % p)
        have hne : ¬ (g ^ (m * invert s q % q) * y ^ (r * invert s q % q) % p % q = r) := by omega
        simp [hne]
      · simp [h0, h1, h2]
  · simp [h0]

/-- For second values in the range 1 .. q-1 `verify` is exactly the DSA verification. Missing from the full property: second
values outside the range, which should be rejected and are not (`C25_forgery_fails`, `C25_malleable_fails`). -/
theorem C25_verify_partial {p q g y m r s : Nat} (hp : p % 2 = 1) (hq : q.Prime) (hs : 0 < s) (hsq : s < q) :
    ∃ b, dsaVerifyInt m [r, s] [p, q, g, y] = .ok b ∧ (b = true ↔ DsaValid p q g y m r s) := by
  refine ⟨_, dsaVerify_iff hp hq.pos, ?_⟩
  have hc := prime_coprime_of_lt hq hs hsq
  have hsp := invert_spec hq.pos hc
  rw [Nat.mod_eq_of_lt hq.one_lt] at hsp
  rw [decide_eq_true_eq]
  constructor
  · rintro ⟨h1, h2, h3⟩
    exact ⟨h1, h2, hs, hsq, _, invert_lt hq.pos, hsp, h3⟩
  · rintro ⟨h1, h2, _, _, w, hw, hw1, h3⟩
    have : invert s q = w := invert_unique (by rw [hw1, Nat.mod_eq_of_lt hq.one_lt]) hw
    rw [this]; exact ⟨h1, h2, h3⟩

/-- One round of signing with a nonce below `q` and non-zero results gives a valid signature. -/
theorem dsaRound_valid {p q g y m x k r s : Nat} (hp : p.Prime) (h2 : p ≠ 2) (hq : q.Prime) (hg : g ^ q % p = 1)
    (hy : y = g ^ x % p) (hk : k < q) (h : dsaRound m x p q g k = .ok (r, s)) (hr : r ≠ 0) (hs : s ≠ 0) :
    DsaValid p q g y m r s := by
  have hodd := odd_of_prime hp h2
  rw [dsaRound, powm_odd hodd, Out.ok_bind] at h
  dsimp only at h
  split at h
  · cases h; exact absurd rfl hr
  · cases h
    generalize hrr : g ^ k % p % q = r at *
    generalize hss : invert k q * (m + x * r) % q = s at *
    have hrq : r < q := by rw [← hrr]; exact Nat.mod_lt _ hq.pos
    have hsq : s < q := by rw [← hss]; exact Nat.mod_lt _ hq.pos
    have hk0 : 0 < k := by
      rcases Nat.eq_zero_or_pos k with rfl | h
      · exfalso
        apply hs
        rw [← hss, invert, if_neg (by rw [Nat.gcd_zero_left]; exact hq.one_lt.ne')]
        simp
      · exact h
    have hkc := prime_coprime_of_lt hq hk0 hk
    have hki : k * invert k q ≡ 1 [MOD q] := invert_spec hq.pos hkc
    have hsc := prime_coprime_of_lt hq (by omega) hsq
    have hsi : s * invert s q ≡ 1 [MOD q] := invert_spec hq.pos hsc
    have hs1 := hsi
    rw [Nat.ModEq, Nat.mod_eq_of_lt hq.one_lt] at hs1
    refine ⟨by omega, hrq, by omega, hsq, invert s q, invert_lt hq.pos, hs1, ?_⟩
    generalize invert s q = w at *
    have hmod : s ≡ invert k q * (m + x * r) [MOD q] := by rw [← hss]; exact Nat.mod_modEq _ _
    have hexp : m * w + x * (r * w) ≡ k [MOD q] := by
      have e1 : m * w + x * (r * w) = (m + x * r) * w := by ring
      have h1 : k * s ≡ m + x * r [MOD q] := by
        calc k * s ≡ k * (invert k q * (m + x * r)) [MOD q] := hmod.mul_left k
          _ = k * invert k q * (m + x * r) := by ring
          _ ≡ 1 * (m + x * r) [MOD q] := hki.mul_right _
          _ = m + x * r := Nat.one_mul _
      rw [e1]
      calc (m + x * r) * w ≡ k * s * w [MOD q] := (h1.mul_right w).symm
        _ = k * (s * w) := by ring
        _ ≡ k * 1 [MOD q] := hsi.mul_left k
        _ = k := Nat.mul_one k
    have hpow : g ^ (m * w % q) * y ^ (r * w % q) ≡ g ^ k [MOD p] := by
      have hyx : y ≡ g ^ x [MOD p] := by rw [hy]; exact Nat.mod_modEq _ _
      calc g ^ (m * w % q) * y ^ (r * w % q) ≡ g ^ (m * w % q) * (g ^ x) ^ (r * w % q) [MOD p] :=
            (hyx.pow _).mul_left _
        _ = g ^ (m * w % q + x * (r * w % q)) := by rw [← Nat.pow_mul, ← Nat.pow_add]
        _ ≡ g ^ k [MOD p] := by
            apply pow_order hp.one_lt hg
            have : m * w % q + x * (r * w % q) ≡ m * w + x * (r * w) [MOD q] :=
              (Nat.mod_modEq _ _).add ((Nat.mod_modEq _ _).mul_left x)
            exact this.trans hexp
    rw [hpow, hrr]

/-- Every signature `sign` returns, for every key, data and sequence of random nonces, has both values in range, satisfies
the DSA equation, and `verify` accepts it. -/
theorem C25_sign_verifies {pub pri : List Nat} (hk : DsaKey pub pri) {m : Nat} {draws sig : List Nat}
    (h : dsaSignInt draws m pri pub = .ok sig) :
    ∃ p q g y r s, pub = [p, q, g, y] ∧ sig = [r, s] ∧ DsaValid p q g y m r s ∧ dsaVerifyInt m sig pub = .ok true := by
  obtain ⟨p, q, g, y, x, hp, h2, hq, hg, rfl, rfl, hy⟩ := hk
  have hodd := odd_of_prime hp h2
  simp only [dsaSignInt, vecAt, List.getElem?_cons_zero, List.getElem?_cons_succ, Out.ok_bind] at h
  rw [if_neg hq.pos.ne'] at h
  have key : ∀ l, dsaSignLoop m x p q g l = .ok sig → ∃ r s, sig = [r, s] ∧ DsaValid p q g y m r s := by
    intro l
    induction l with
    | nil => intro h; simp [dsaSignLoop] at h
    | cons k l ih =>
      intro h
      rw [dsaSignLoop] at h
      obtain ⟨⟨r, s⟩, hr, h⟩ := Out.bind_eq_ok.mp h
      dsimp only at h
      split at h
      · exact ih h
      · rename_i hrs
        cases h
        simp only [not_or] at hrs
        exact ⟨r, s, rfl, dsaRound_valid hp h2 hq hg hy (Nat.mod_lt _ hq.pos) hr hrs.1 hrs.2⟩
  obtain ⟨r, s, rfl, hv⟩ := key _ h
  refine ⟨p, q, g, y, r, s, rfl, rfl, hv, ?_⟩
  obtain ⟨b, hb, hbv⟩ := C25_verify_partial (g := g) (y := y) (m := m) (r := r) hodd hq hv.2.2.1 hv.2.2.2.1
  rw [hb, hbv.mpr hv]

/-- Signing returns once a nonce gives non-zero values. -/
theorem C25_sign_returns {p q g y x m k r s : Nat} (hq : 0 < q) (pre post : List Nat)
    (hpre : ∀ k ∈ pre, ∃ r s, dsaRound m x p q g (k % q) = .ok (r, s))
    (hk : dsaRound m x p q g (k % q) = .ok (r, s)) (hr : r ≠ 0) (hs : s ≠ 0) :
    ∃ sig, dsaSignInt (pre ++ k :: post) m [x] [p, q, g, y] = .ok sig := by
  simp only [dsaSignInt, vecAt, List.getElem?_cons_zero, List.getElem?_cons_succ, Out.ok_bind]
  rw [if_neg hq.ne']
  induction pre with
  | nil =>
    refine ⟨[r, s], ?_⟩
    rw [List.nil_append, dsaSignLoop, hk, Out.ok_bind]
    simp [hr, hs]
  | cons a pre ih =>
    obtain ⟨r', s', ha⟩ := hpre a (by simp)
    rw [List.cons_append, dsaSignLoop, ha, Out.ok_bind]
    dsimp only
    split
    · exact ih fun k hk => hpre k (by simp [hk])
    · exact ⟨_, rfl⟩

/-- The full second half of the property fails: the pair `(1, 0)` — and `(1, j q)` for every `j` — is accepted for every message
under every key, without the secret. (The inverse of zero is taken to be what GMP leaves in the result, zero.) -/
theorem C25_forgery_fails {p q g y m j : Nat} (hp : p % 2 = 1) (hp1 : 1 < p) (hq : 1 < q) :
    dsaVerifyInt m [1, j * q] [p, q, g, y] = .ok true := by
  rw [dsaVerify_iff hp (by omega)]
  have hi : invert (j * q) q = 0 := by
    rw [invert, if_neg]
    rw [Nat.gcd_comm, Nat.gcd_mul_left_right]
    omega
  rw [hi]
  simp only [Nat.mul_zero, Nat.zero_mod, Nat.pow_zero, Nat.mul_one, Nat.mod_eq_of_lt hp1, Nat.mod_eq_of_lt hq]
  simp [hq]

/-- And every accepted signature stays accepted when multiples of `q` are added to its second value. -/
theorem C25_malleable_fails {p q g y m r s j : Nat} (hp : p % 2 = 1) (hq : 0 < q)
    (h : dsaVerifyInt m [r, s] [p, q, g, y] = .ok true) : dsaVerifyInt m [r, s + j * q] [p, q, g, y] = .ok true := by
  rw [dsaVerify_iff hp hq] at h ⊢
  have hi : invert (s + j * q) q = invert s q := by
    by_cases hc : Nat.gcd s q = 1
    · refine invert_unique ?_ (invert_lt hq)
      rw [Nat.add_mul, Nat.mul_right_comm, Nat.add_mul_mod_self_right, invert_spec hq hc]
    · have : Nat.gcd (s + j * q) q ≠ 1 := by rwa [Nat.gcd_add_mul_right_left]
      rw [invert, invert, if_neg hc, if_neg this]
  rw [hi]
  exact h

/-- Key generation returns only keys in the sense above, given primes `p`, `q` and a generator of order `q`. -/
theorem C25_keygen {p q g : Nat} {draws : List Nat} {trials : List (List Nat)} {pub pri : List Nat} (hp : p.Prime) (h2 : p ≠ 2)
    (hq : q.Prime) (hg : g ^ q % p = 1) (h : dsaKeygen draws trials [p, q, g] = .ok (pub, pri)) :
    DsaKey pub pri ∧ ∃ x, pri = [x] ∧ 0 < x ∧ x < q := by
  simp only [dsaKeygen, vecAt, List.getElem?_cons_zero, List.getElem?_cons_succ, Out.ok_bind] at h
  obtain ⟨x, hx, h⟩ := Out.bind_eq_ok.mp h
  obtain ⟨hx0, hxq⟩ := drawBelow_ok hx
  have hodd := odd_of_prime hp h2
  have key : ∀ t, dsaKeyTrials x [p, q, g] t = .ok (pub, pri) → pub = [p, q, g, g ^ x % p] ∧ pri = [x] := by
    intro t
    induction t with
    | nil => intro h; simp [dsaKeyTrials] at h
    | cons a t ih =>
      intro h
      simp only [dsaKeyTrials, vecAt, List.getElem?_cons_zero, List.getElem?_cons_succ, Out.ok_bind, powm_odd hodd] at h
      obtain ⟨rs, _, h⟩ := Out.bind_eq_ok.mp h
      obtain ⟨b, _, h⟩ := Out.bind_eq_ok.mp h
      split at h
      · cases h; exact ⟨rfl, rfl⟩
      · exact ih h
  obtain ⟨rfl, rfl⟩ := key _ h
  exact ⟨⟨p, q, g, _, x, hp, h2, hq, hg, rfl, rfl, rfl⟩, x, rfl, hx0, hxq⟩

/-- The trial signature of key generation never fails: the first trial that signs ends the loop. -/
theorem C25_keygen_first_trial {p q g x : Nat} {nonces : List Nat} {sig : List Nat} (trials : List (List Nat)) (hp : p.Prime)
    (h2 : p ≠ 2) (hq : q.Prime) (hg : g ^ q % p = 1)
    (hs : dsaSign nonces dsaTestText [x] [p, q, g, g ^ x % p] = .ok sig) :
    dsaKeyTrials x [p, q, g] (nonces :: trials) = .ok ([p, q, g, g ^ x % p], [x]) := by
  have hodd := odd_of_prime hp h2
  have hk : DsaKey [p, q, g, g ^ x % p] [x] := ⟨p, q, g, _, x, hp, h2, hq, hg, rfl, rfl, rfl⟩
  have hraw : rawtompi dsaTestText = .ok (num dsaTestText) := by rw [rawtompi_eq, if_neg (by decide)]
  have hs' := hs
  rw [dsaSign, hraw, Out.ok_bind] at hs'
  obtain ⟨_, _, _, _, _, _, _, _, _, hv⟩ := C25_sign_verifies hk hs'
  simp only [dsaKeyTrials, vecAt, List.getElem?_cons_zero, List.getElem?_cons_succ, Out.ok_bind, powm_odd hodd]
  rw [show [p, q, g] ++ [g ^ x % p] = [p, q, g, g ^ x % p] from rfl, hs, Out.ok_bind, dsaVerify, hraw, Out.ok_bind, hv,
    Out.ok_bind, if_pos rfl]
  rfl

/-- The public parameters: whenever the primality test accepted an odd prime, `p`, `q`, `g` are as required. -/
theorem C25_new_public {test : Nat → Bool} {q start fuel : Nat} {vals : List Nat} (hq : q.Prime) (hs : q < start)
    (htest : ∀ a, test a = true → a.Prime ∧ a ≠ 2) (h : dsaNewPublic test q start fuel = .ok vals) :
    ∃ p g, vals = [p, q, g] ∧ p.Prime ∧ p ≠ 2 ∧ q ∣ p - 1 ∧ g ^ q % p = 1 ∧ g ≠ 1 ∧ g < p := by
  obtain ⟨p, h1, h⟩ := Out.bind_eq_ok.mp h
  obtain ⟨ht, j, hj⟩ := findPrime_ok h1
  obtain ⟨hp, h2⟩ := htest _ ht
  have hdiv : q ∣ p - 1 := by
    have : p - 1 = ((start - 1) / q + j) * q := by rw [hj, Nat.add_mul]; omega
    rw [this]; exact Nat.dvd_mul_left _ _
  have hq2 := hq.two_le
  have hlt : q < p := by
    have h3 : 0 < (start - 1) / q := Nat.div_pos (by omega) (by omega)
    have := Nat.le_mul_of_pos_left q h3
    omega
  obtain ⟨g, hg, hg1, hglt, _, hgo⟩ := findGenerator_total hp h2 hq2 hdiv hlt
  rw [hg, Out.ok_bind] at h
  cases h
  exact ⟨p, g, rfl, hp, h2, hdiv, hgo, hg1, hglt⟩

/-- A key meeting the hypotheses: p = 23, q = 11, g = 4, x = 3, y = 18; nonce 0 is tried and rejected first. -/
example : DsaKey [23, 11, 4, 18] [3] :=
  ⟨23, 11, 4, 18, 3, by norm_num, by decide, by norm_num, by decide, rfl, rfl, by decide⟩
example : dsaSignInt [0, 7] 5 [3] [23, 11, 4, 18] = .ok [8, 1] := by decide +kernel
example : dsaVerifyInt 5 [8, 1] [23, 11, 4, 18] = .ok true := by decide +kernel
example : dsaVerifyInt 6 [8, 1] [23, 11, 4, 18] = .ok false := by decide +kernel

end OpenPGP
