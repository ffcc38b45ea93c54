import Verif.Lemmas.Pka
import Mathlib.Tactic.NormNum.Prime

/-!
# C23: RSA decrypts what it encrypts and verifies what it signs
-/
namespace OpenPGP

/-- `pub = n, e` and `pri = d, ..` form an RSA key: `n` is the product of two different odd primes and
`e d = 1` modulo `(p - 1)(q - 1)`. -/
def RsaKey (pub pri : List Nat) : Prop :=
  ∃ p q e d rest, p.Prime ∧ q.Prime ∧ p ≠ q ∧ p ≠ 2 ∧ q ≠ 2 ∧ pub = [p * q, e] ∧ pri = d :: rest ∧
    e * d % ((p - 1) * (q - 1)) = 1

theorem mod_odd_mul {p q : Nat} (hp : p.Prime) (hq : q.Prime) (h2 : p ≠ 2) (h2' : q ≠ 2) : p * q % 2 = 1 := by
  rcases hp.eq_two_or_odd with h | h
  · exact absurd h h2
  · rcases hq.eq_two_or_odd with h' | h'
    · exact absurd h' h2'
    · rw [Nat.mul_mod, h, h']

/-- Both directions of the permutation: encrypting then decrypting and decrypting (signing) then encrypting (verifying)
give back every number below the modulus. -/
theorem C23_roundtrip {pub pri : List Nat} (hk : RsaKey pub pri) {n m : Nat} (hn : pub[0]? = some n) (hm : m < n) :
    (∃ c, rsaEncrypt m pub = .ok c ∧ c < n ∧ rsaDecrypt c pri pub = .ok m) ∧
    (∃ s, rsaDecrypt m pri pub = .ok s ∧ s < n ∧ rsaVerifyInt m [s] pub = .ok true) := by
  obtain ⟨p, q, e, d, rest, hp, hq, hpq, h2, h2', rfl, rfl, hed⟩ := hk
  obtain rfl : p * q = n := by simpa using hn
  have hodd := mod_odd_mul hp hq h2 h2'
  have hpos : 0 < p * q := Nat.mul_pos hp.pos hq.pos
  have hed1 : e * d % ((p - 1) * (q - 1)) = 1 % ((p - 1) * (q - 1)) := by
    rw [hed, Nat.mod_eq_of_lt]
    by_contra hc
    have : (p - 1) * (q - 1) = 0 ∨ (p - 1) * (q - 1) = 1 := by omega
    rcases this with h | h
    · have := hp.two_le; have := hq.two_le
      rcases Nat.mul_eq_zero.mp h with h | h <;> omega
    · rw [h, Nat.mod_one] at hed; exact absurd hed (by decide)
  have hed0 : 0 < e * d := by
    rcases Nat.eq_zero_or_pos (e * d) with h | h
    · rw [h, Nat.zero_mod] at hed; exact absurd hed (by decide)
    · exact h
  have key : m ^ (e * d) % (p * q) = m := by
    have := rsa_identity (m := m) hp hq hpq hed1 hed0
    rw [this, Nat.mod_eq_of_lt hm]
  constructor
  · refine ⟨m ^ e % (p * q), ?_, Nat.mod_lt _ hpos, ?_⟩
    · simp only [rsaEncrypt, vecAt, List.getElem?_cons_zero, List.getElem?_cons_succ, Out.ok_bind, powm_odd hodd]
    · simp only [rsaDecrypt, vecAt, List.getElem?_cons_zero, Out.ok_bind, powm_odd hodd]
      rw [← Nat.pow_mod, ← Nat.pow_mul, key]
  · refine ⟨m ^ d % (p * q), ?_, Nat.mod_lt _ hpos, ?_⟩
    · simp only [rsaDecrypt, vecAt, List.getElem?_cons_zero, Out.ok_bind, powm_odd hodd]
    · simp only [rsaVerifyInt, rsaEncrypt, vecAt, List.getElem?_cons_zero, List.getElem?_cons_succ, Out.ok_bind,
        powm_odd hodd]
      rw [← Nat.pow_mod, ← Nat.pow_mul, Nat.mul_comm d e, key]
      simp

/-- `verify` is true exactly when the `e`-th power of the signature is the data, as numbers modulo `n`; in particular for no
data of `n` or more. -/
theorem C23_verify_iff {n e s : Nat} {m : Nat} (hn : n % 2 = 1) :
    rsaVerifyInt m [s] [n, e] = .ok (decide (s ^ e % n = m)) := by
  simp only [rsaVerifyInt, rsaEncrypt, vecAt, List.getElem?_cons_zero, List.getElem?_cons_succ, Out.ok_bind,
    powm_odd hn, Out.pure_eq]
  congr 1

/-- Only the signer's value verifies: any number below the modulus that verifies for `m` is the signature of `m`, and
one signature verifies for one number only. -/
theorem C23_verify_only {pub pri : List Nat} (hk : RsaKey pub pri) {n m s : Nat} (hn : pub[0]? = some n)
    (hv : rsaVerifyInt m [s] pub = .ok true) :
    m < n ∧ rsaDecrypt m pri pub = .ok (s % n) ∧ ∀ m', rsaVerifyInt m' [s] pub = .ok true → m' = m := by
  have hk' := hk
  obtain ⟨p, q, e, d, rest, hp, hq, hpq, h2, h2', rfl, rfl, hed⟩ := hk
  obtain rfl : p * q = n := by simpa using hn
  have hodd := mod_odd_mul hp hq h2 h2'
  have hpos : 0 < p * q := Nat.mul_pos hp.pos hq.pos
  have he : ∀ x, rsaVerifyInt x [s] [p * q, e] = .ok true → s ^ e % (p * q) = x := by
    intro x hx
    rw [C23_verify_iff hodd] at hx
    simpa using hx
  have hm := he m hv
  refine ⟨hm ▸ Nat.mod_lt _ hpos, ?_, fun m' h' => ((he m' h').symm.trans hm)⟩
  obtain ⟨⟨c, hc, _, hdc⟩, _⟩ := C23_roundtrip hk' (m := s % (p * q)) hn (Nat.mod_lt _ hpos)
  simp only [rsaEncrypt, vecAt, List.getElem?_cons_zero, List.getElem?_cons_succ, Out.ok_bind, powm_odd hodd] at hc
  rw [← Nat.pow_mod, hm] at hc
  cases hc
  exact hdc

/-- Key generation, when it returns, gives a key: with `nextprime` yielding primes, the returned `n, e, d, p, q, u` satisfy
`p < q` prime, `n = p q`, `e d = 1` modulo `(p - 1)(q - 1)` with `e` odd, and `p u = 1` modulo `q`. -/
theorem C23_keygen {np : Nat → Nat} (hnp : ∀ a, (np a).Prime) {draws vals : List Nat} (h : rsaKeygen np draws = .ok vals) :
    ∃ n e d p q u, vals = [n, e, d, p, q, u] ∧ p.Prime ∧ q.Prime ∧ p < q ∧ n = p * q ∧ e % 2 = 1 ∧
      e * d % ((p - 1) * (q - 1)) = 1 % ((p - 1) * (q - 1)) ∧ d < (p - 1) * (q - 1) ∧ p * u % q = 1 ∧ u < q := by
  have hprimes : ∀ l p q r, rsaPrimes np l = .ok (p, q, r) → p.Prime ∧ q.Prime ∧ p ≠ q := by
    intro l
    induction l using rsaPrimes.induct (np := np) with
    | case1 a b l hab ih => intro p q r hr; rw [rsaPrimes, if_pos hab] at hr; exact ih p q r hr
    | case2 a b l hab => intro p q r hr; rw [rsaPrimes, if_neg hab] at hr; cases hr; exact ⟨hnp _, hnp _, hab⟩
    | case3 l hl =>
      intro p q r hr
      rcases l with _ | ⟨a, _ | ⟨b, l⟩⟩
      · simp [rsaPrimes] at hr
      · simp [rsaPrimes] at hr
      · exact absurd rfl (hl a b l)
  obtain ⟨⟨p, q, r⟩, h1, h2⟩ := Out.bind_eq_ok.mp h
  obtain ⟨hp, hq, hpq⟩ := hprimes _ _ _ _ h1
  obtain ⟨p', q', hsw, hp', hq', hlt, hmul⟩ : ∃ p' q', (if q < p then (q, p) else (p, q)) = (p', q') ∧ p'.Prime ∧ q'.Prime ∧
      p' < q' ∧ p * q = p' * q' := by
    by_cases hc : q < p
    · exact ⟨q, p, if_pos hc, hq, hp, hc, Nat.mul_comm _ _⟩
    · exact ⟨p, q, if_neg hc, hp, hq, by omega, rfl⟩
  dsimp only at h2
  rw [hsw] at h2
  dsimp only at h2
  rcases r with _ | ⟨e0, r⟩
  · simp at h2
  · dsimp only at h2
    obtain ⟨e, he, h3⟩ := Out.bind_eq_ok.mp h2
    cases h3
    have htot : 0 < (p' - 1) * (q' - 1) := Nat.mul_pos (by have := hp'.two_le; omega) (by have := hq'.two_le; omega)
    have hodd0 : (if e0 % 2 = 0 then e0 + 1 else e0) % 2 = 1 := by split <;> omega
    have hexp : ∀ fuel x r, rsaExponent ((p' - 1) * (q' - 1)) fuel x = .ok r → x % 2 = 1 →
        Nat.gcd ((p' - 1) * (q' - 1)) r = 1 ∧ r % 2 = 1 := by
      intro fuel
      induction fuel with
      | zero => intro x r hr; simp [rsaExponent] at hr
      | succ fuel ih =>
        intro x r hr hx
        rw [rsaExponent] at hr
        split at hr
        · exact ih _ _ hr (by omega)
        · rename_i hg; cases hr; exact ⟨by simpa using hg, hx⟩
    obtain ⟨hg, hodd⟩ := hexp _ _ _ he hodd0
    have hq2 : 2 ≤ q' := hq'.two_le
    refine ⟨_, _, _, p', q', _, rfl, hp', hq', hlt, hmul, hodd, invert_spec htot (by rwa [Nat.gcd_comm]), invert_lt htot, ?_,
      invert_lt hq'.pos⟩
    rw [invert_spec hq'.pos ((Nat.coprime_primes hp' hq').mpr (by omega)), Nat.mod_eq_of_lt (by omega)]

/-- Key generation returns as soon as the two primes differ, whatever number is drawn for `e`: the search for a public
exponent ends. -/
theorem C23_keygen_returns {np : Nat → Nat} (hnp : ∀ a, (np a).Prime) (a b e : Nat) (more : List Nat) (hab : np a ≠ np b) :
    ∃ vals, rsaKeygen np (a :: b :: e :: more) = .ok vals := by
  obtain ⟨p', q', hsw, hp', hq', hlt⟩ : ∃ p' q', (if np b < np a then (np b, np a) else (np a, np b)) = (p', q') ∧ p'.Prime ∧
      q'.Prime ∧ p' < q' := by
    by_cases hc : np b < np a
    · exact ⟨_, _, if_pos hc, hnp _, hnp _, hc⟩
    · exact ⟨_, _, if_neg hc, hnp _, hnp _, by omega⟩
  have hp2 := hp'.two_le
  have heven : (p' - 1) * (q' - 1) % 2 = 0 := by
    rcases hq'.eq_two_or_odd with h | h
    · omega
    · rw [Nat.mul_mod, show (q' - 1) % 2 = 0 by omega]; simp
  generalize htot : (p' - 1) * (q' - 1) = tot at heven
  have htot0 : 0 < tot := by rw [← htot]; exact Nat.mul_pos (by omega) (by omega)
  generalize hee : (if e % 2 = 0 then e + 1 else e) = e1
  have he1 : e1 % 2 = 1 := by rw [← hee]; split <;> omega
  obtain ⟨r, hr, _⟩ := rsaExponent_ok (tot := tot) (tot * e1 + 2) e1 (tot * e1 + 1) he1
    (by simp) (by rw [Nat.add_mod, Nat.mul_mod, heven]; simp)
    (by have := Nat.le_mul_of_pos_left e1 htot0; omega) (by omega)
  refine ⟨[np a * np b, r, invert r tot, p', q', invert p' q'], ?_⟩
  rw [rsaKeygen, rsaPrimes, if_neg hab]
  simp only [Out.ok_bind]
  rw [hsw]
  dsimp only
  rw [hee, htot, hr]
  rfl

/-- So a generated key with odd primes is an RSA key in the sense used above, split as `generate_keypair` does
(PKAs.cpp:70-82). -/
theorem C23_keygen_key {np : Nat → Nat} (hnp : ∀ a, (np a).Prime) (h2 : ∀ a, np a ≠ 2) {draws : List Nat} {n e d p q u : Nat}
    (h : rsaKeygen np draws = .ok [n, e, d, p, q, u]) : RsaKey [n, e] [d, p, q, u] := by
  obtain ⟨n', e', d', p', q', u', heq, hp, hq, hlt, hn, _, hed, _⟩ := C23_keygen hnp h
  simp only [List.cons.injEq, and_true] at heq
  obtain ⟨rfl, rfl, rfl, rfl, rfl, rfl⟩ := heq
  have hne : p ≠ 2 ∧ q ≠ 2 := by
    have key : ∀ l x y r, rsaPrimes np l = .ok (x, y, r) → x ≠ 2 ∧ y ≠ 2 := by
      intro l
      induction l using rsaPrimes.induct (np := np) with
      | case1 a b l hab ih => intro x y r hr; rw [rsaPrimes, if_pos hab] at hr; exact ih x y r hr
      | case2 a b l hab => intro x y r hr; rw [rsaPrimes, if_neg hab] at hr; cases hr; exact ⟨h2 _, h2 _⟩
      | case3 l hl =>
        intro x y r hr
        rcases l with _ | ⟨a, _ | ⟨b, l⟩⟩
        · simp [rsaPrimes] at hr
        · simp [rsaPrimes] at hr
        · exact absurd rfl (hl a b l)
    obtain ⟨⟨x, y, r⟩, h1, h3⟩ := Out.bind_eq_ok.mp h
    obtain ⟨hx, hy⟩ := key _ _ _ _ h1
    dsimp only at h3
    rcases r with _ | ⟨e0, r⟩
    · simp at h3
    · obtain ⟨e, he, h4⟩ := Out.bind_eq_ok.mp h3
      simp only [Out.pure_eq, Out.ok.injEq, List.cons.injEq, and_true] at h4
      obtain ⟨-, -, -, hpe, hqe, -⟩ := h4
      rw [← hpe, ← hqe]
      constructor <;> split <;> assumption
  have hp2 := hp.two_le
  refine ⟨p, q, e, d, [p, q, u], hp, hq, by omega, hne.1, hne.2, by rw [hn], rfl, ?_⟩
  rw [hed, Nat.mod_eq_of_lt]
  have h3 : 2 ≤ p - 1 := by omega
  have h4 : 2 ≤ q - 1 := by omega
  have := Nat.mul_le_mul h3 h4
  omega

/-- A modulus with the prime 2 (which `nextprime` of a draw below 2 yields) makes every operation divide by zero. -/
theorem C23_even_modulus_ub (n e m : Nat) (h : n % 2 = 0) : rsaEncrypt m [n, e] = .ub := by
  simp [rsaEncrypt, vecAt, powm, h]

/-- A signature above the modulus is accepted as well: `verify` does not check the range, and `s + n` verifies with `s`. -/
theorem C23_out_of_range_accepted (n e s m : Nat) (hn : n % 2 = 1) (h : rsaVerifyInt m [s] [n, e] = .ok true) :
    rsaVerifyInt m [s + n] [n, e] = .ok true := by
  rw [C23_verify_iff hn] at h ⊢
  rw [Nat.pow_mod, Nat.add_mod_right, ← Nat.pow_mod]
  exact h

/-- A key meeting the hypotheses: 61 * 53. -/
example : RsaKey [61 * 53, 17] [2753] :=
  ⟨61, 53, 17, 2753, [], by norm_num, by norm_num, by decide, by decide, by decide, rfl, rfl, by decide⟩
example : rsaEncrypt 65 [61 * 53, 17] = .ok 2790 := by decide +kernel
/-- Key generation from draws whose next primes are 61 and 53. -/
example : ∃ vals, rsaKeygen (fun a => if a = 1 then 61 else 53) [1, 0, 6] = .ok vals ∧ vals.take 3 = [3233, 7, 1783] :=
  ⟨_, rfl, by decide +kernel⟩

end OpenPGP
