import Verif.Lemmas.Pka
import Mathlib.Tactic.NormNum.Prime

/-!
# C24: ElGamal decrypts what it encrypts
-/
namespace OpenPGP

/-- `pub = p, g, y` and `pri = x` form an ElGamal key: `p` an odd prime not dividing `g`, and `y = g^x mod p`. -/
def ElgamalKey (pub pri : List Nat) : Prop :=
  ∃ p g y x, p.Prime ∧ p ≠ 2 ∧ ¬ p ∣ g ∧ pub = [p, g, y] ∧ pri = [x] ∧ y = g ^ x % p

/-- For every key, message below the prime and random number drawn, decryption gives the octets of the message. -/
theorem C24_roundtrip {pub pri : List Nat} (hk : ElgamalKey pub pri) {p m : Nat} (hp0 : pub[0]? = some p) (hm : m < p)
    (draw : Nat) :
    ∃ c, elgamalEncrypt draw m pub = .ok c ∧ elgamalDecrypt c pri pub = mpitoraw m := by
  obtain ⟨p', g, y, x, hp, h2, hg, rfl, rfl, rfl⟩ := hk
  obtain rfl : p' = p := by simpa using hp0
  have hodd : p' % 2 = 1 := by
    rcases hp.eq_two_or_odd with h | h
    · exact absurd h h2
    · exact h
  have hpos := hp.pos
  generalize hkk : draw % p' = k
  have henc : elgamalEncrypt draw m [p', g, g ^ x % p'] = .ok [g ^ k % p', m * ((g ^ x % p') ^ k % p') % p'] := by
    simp only [elgamalEncrypt, vecAt, List.getElem?_cons_zero, List.getElem?_cons_succ, Out.ok_bind, powm_odd hodd, hkk]
    rw [if_neg (by omega)]; rfl
  refine ⟨_, henc, ?_⟩
  simp only [elgamalDecrypt, vecAt, List.getElem?_cons_zero, List.getElem?_cons_succ, Out.ok_bind, powm_odd hodd]
  congr 1
  have hcg : Nat.Coprime (g ^ k) p' := (Nat.coprime_comm.mp ((Nat.Prime.coprime_iff_not_dvd hp).mpr hg)).pow_left k
  have hcs : Nat.gcd ((g ^ k % p') ^ x % p') p' = 1 := by
    rw [← Nat.pow_mod, ← Nat.gcd_rec, Nat.gcd_comm]
    exact hcg.pow_left x
  have hinv : (g ^ k % p') ^ x % p' * invert ((g ^ k % p') ^ x % p') p' ≡ 1 [MOD p'] := invert_spec hpos hcs
  generalize invert ((g ^ k % p') ^ x % p') p' = w at hinv
  have e1 : (g ^ x % p') ^ k % p' = (g ^ k % p') ^ x % p' := by
    rw [← Nat.pow_mod, ← Nat.pow_mod, ← Nat.pow_mul, ← Nat.pow_mul, Nat.mul_comm]
  rw [e1]
  generalize (g ^ k % p') ^ x % p' = s at hinv
  have : w * (m * s % p') ≡ m [MOD p'] := by
    calc w * (m * s % p') ≡ w * (m * s) [MOD p'] := (Nat.mod_modEq _ _).mul_left w
      _ = (s * w) * m := by ring
      _ ≡ 1 * m [MOD p'] := hinv.mul_right m
      _ = m := Nat.one_mul m
  rw [this, Nat.mod_eq_of_lt hm]

/-- The octets determine the message. -/
theorem C24_octets (m : Nat) : ∃ o, mpitoraw m = .ok o ∧ rawtompi o = .ok m :=
  ⟨_, mpitoraw_eq m, by rw [rawtompi_eq, if_neg (mpiRaw_ne_nil m), num_mpiRaw]⟩

theorem findPrime_ok {test : Nat → Bool} {q : Nat} : ∀ {fuel s p : Nat}, findPrime test q fuel s = .ok p →
    test p = true ∧ ∃ j, p = s + j * q := by
  intro fuel
  induction fuel with
  | zero => intro s p h; simp [findPrime] at h
  | succ fuel ih =>
    intro s p h
    rw [findPrime] at h
    split at h
    · rename_i ht; cases h; exact ⟨ht, 0, by simp⟩
    · obtain ⟨h1, j, hj⟩ := ih h
      exact ⟨h1, j + 1, by rw [hj]; ring⟩

theorem findGenerator_ok {p exp : Nat} (hodd : p % 2 = 1) (target : Nat) (htp : target < p)
    (hne : target ^ exp % p ≠ 1) : ∀ (fuel h : Nat), h < target → target - h ≤ fuel →
    ∃ a, h < a ∧ a ≤ target ∧ findGenerator exp p fuel h = .ok (a ^ exp % p) ∧ a ^ exp % p ≠ 1 := by
  intro fuel
  induction fuel with
  | zero => intro h h1 h2; omega
  | succ fuel ih =>
    intro h h1 h2
    rw [findGenerator, powm_odd hodd, Out.ok_bind]
    by_cases hg : (h + 1) ^ exp % p = 1
    · rw [if_pos hg]
      have : h + 1 ≠ target := by rintro rfl; exact hne hg
      obtain ⟨a, ha, hb, hc, hd⟩ := ih (h + 1) (by omega) (by omega)
      exact ⟨a, by omega, hb, hc, hd⟩
    · rw [if_neg hg]; exact ⟨h + 1, by omega, by omega, rfl, hg⟩

theorem drawBelow_ok {p : Nat} : ∀ {l : List Nat} {x : Nat}, drawBelow p l = .ok x → 0 < x ∧ x < p := by
  intro l
  induction l with
  | nil => intro x h; simp [drawBelow] at h
  | cons a l ih =>
    intro x h
    rw [drawBelow] at h
    split at h
    · exact ih h
    · cases h; omega

/-- The search for the generator ends and gives an element of order dividing `q`, other than one: shared by the ElGamal and
the DSA key generation. -/
theorem findGenerator_total {p q : Nat} (hp : p.Prime) (h2 : p ≠ 2) (hq : 2 ≤ q) (hd : q ∣ p - 1) (hlt : q < p) :
    ∃ g, findGenerator ((p - 1) / q) p p 1 = .ok g ∧ g ≠ 1 ∧ g < p ∧ ¬ p ∣ g ∧ g ^ q % p = 1 := by
  have hodd : p % 2 = 1 := by
    rcases hp.eq_two_or_odd with h | h
    · exact absurd h h2
    · exact h
  have hp2 := hp.two_le
  have hq0 : (p - 1) / q ≠ 0 := by
    have : q ≤ p - 1 := by omega
    exact Nat.ne_of_gt (Nat.div_pos this (by omega))
  have hqlt : (p - 1) / q < p - 1 := Nat.div_lt_self (by omega) (by omega)
  obtain ⟨t, ht2, htp, htn⟩ := exists_pow_ne_one hp hq0 hqlt
  obtain ⟨a, ha1, ha2, ha3, ha4⟩ := findGenerator_ok hodd t htp htn p 1 (by omega) (by omega)
  have hac : Nat.Coprime a p := by
    refine Nat.coprime_comm.mp ((Nat.Prime.coprime_iff_not_dvd hp).mpr ?_)
    intro hdvd
    have := Nat.le_of_dvd (by omega) hdvd
    omega
  refine ⟨_, ha3, ha4, Nat.mod_lt _ hp.pos, ?_, ?_⟩
  · have hc := hac.pow_left ((p - 1) / q)
    intro hdvd
    have : Nat.gcd (a ^ ((p - 1) / q) % p) p = 1 := by rw [← Nat.gcd_rec, Nat.gcd_comm]; exact hc
    rw [Nat.gcd_eq_right hdvd] at this
    omega
  · rw [← Nat.pow_mod, ← Nat.pow_mul, Nat.div_mul_cancel hd]
    have h1 := Nat.ModEq.pow_totient hac
    rw [Nat.totient_prime hp] at h1
    rw [h1, Nat.mod_eq_of_lt hp.one_lt]

/-- Key generation gives an ElGamal key whenever the number the primality test accepted is an odd prime. -/
theorem C24_keygen {test : Nat → Bool} {q start fuel : Nat} {draws vals : List Nat} (hq : 2 ≤ q)
    (hs : q < start) (htest : ∀ a, test a = true → a.Prime ∧ a ≠ 2) (h : elgamalKeygen test q start fuel draws = .ok vals) :
    ∃ p g y x, vals = [p, g, y, x] ∧ ElgamalKey [p, g, y] [x] ∧ 0 < x ∧ x < p ∧ q ∣ p - 1 := by
  obtain ⟨p, h1, h⟩ := Out.bind_eq_ok.mp h
  obtain ⟨ht, j, hj⟩ := findPrime_ok h1
  obtain ⟨hp, h2⟩ := htest _ ht
  have hdiv : q ∣ p - 1 := by
    have : p - 1 = ((start - 1) / q + j) * q := by rw [hj, Nat.add_mul]; omega
    rw [this]; exact Nat.dvd_mul_left _ _
  have hlt : q < p := by
    have h3 : 0 < (start - 1) / q := Nat.div_pos (by omega) (by omega)
    have := Nat.le_mul_of_pos_left q h3
    omega
  obtain ⟨g, hg, _, hglt, hgd, _⟩ := findGenerator_total hp h2 hq hdiv hlt
  have hodd : p % 2 = 1 := by
    rcases hp.eq_two_or_odd with h | h
    · exact absurd h h2
    · exact h
  rw [hg, Out.ok_bind] at h
  obtain ⟨x, hx, h⟩ := Out.bind_eq_ok.mp h
  rw [powm_odd hodd, Out.ok_bind] at h
  cases h
  obtain ⟨hx0, hxp⟩ := drawBelow_ok hx
  exact ⟨p, g, _, x, rfl, ⟨p, g, _, x, hp, h2, hgd, rfl, rfl, rfl⟩, hx0, hxp, hdiv⟩

/-- A ciphertext of one value only is undefined behaviour. -/
theorem C24_short_ciphertext_ub (c x p g y : Nat) (hp : p % 2 = 1) : elgamalDecrypt [c] [x] [p, g, y] = .ub := by
  simp only [elgamalDecrypt, vecAt, List.getElem?_cons_zero, List.getElem?_cons_succ, Out.ok_bind, powm_odd hp]
  simp

/-- A key meeting the hypotheses. -/
example : ElgamalKey [23, 5, 8] [6] := ⟨23, 5, 8, 6, by norm_num, by decide, by decide, rfl, rfl, by decide⟩
example : elgamalEncrypt 3 7 [23, 5, 8] = .ok [10, 19] := by decide
example : elgamalKeygen (fun a => a == 23) 11 20 10 [0, 6] = .ok [23, 4, 2, 6] := by decide

end OpenPGP
