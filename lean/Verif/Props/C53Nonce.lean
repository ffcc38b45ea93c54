import Verif.Props.C53
import Verif.Props.C25
import Mathlib.FieldTheory.Finite.Basic

/-!
# C53: nonces that come twice

Two DSA signatures of different data with the same nonce give the secret key away, and processes started in the same second draw the same nonces.
-/
namespace OpenPGP

/-- A signature from one nonce. -/
theorem dsaSign_single {p q g y x m k : Nat} {sig : List Nat} (hp : p % 2 = 1) (hq : 0 < q) (h : dsaSignInt [k] m [x] [p, q, g, y] = .ok sig) :
    ∃ i s, sig = [g ^ (k % q) % p % q, s] ∧ i = invert (k % q) q ∧ s = i * (m + x * (g ^ (k % q) % p % q)) % q ∧ g ^ (k % q) % p % q ≠ 0 ∧ s ≠ 0 := by
  simp only [dsaSignInt, vecAt, List.getElem?_cons_zero, List.getElem?_cons_succ, Out.ok_bind] at h
  rw [if_neg hq.ne', dsaSignLoop] at h
  obtain ⟨⟨r, s⟩, hr, h⟩ := Out.bind_eq_ok.mp h
  dsimp only at h
  split at h
  · simp [dsaSignLoop] at h
  · rename_i hrs
    simp only [not_or] at hrs
    cases h
    rw [dsaRound, powm_odd hp, Out.ok_bind] at hr
    dsimp only at hr
    split at hr
    · cases hr; exact absurd rfl hrs.1
    · cases hr
      exact ⟨_, _, rfl, rfl, rfl, hrs.1, hrs.2⟩

/-- Whoever sees two signatures of data that are not the same modulo `q`, made by one key with one nonce, computes the secret from them. -/
theorem C25_same_nonce_fails {pub pri : List Nat} (hk : DsaKey pub pri) {m m' k : Nat} {sig sig' : List Nat}
    (h : dsaSignInt [k] m pri pub = .ok sig) (h' : dsaSignInt [k] m' pri pub = .ok sig') :
    ∃ p q g y x r s s', pub = [p, q, g, y] ∧ pri = [x] ∧ sig = [r, s] ∧ sig' = [r, s'] ∧
      (m % q ≠ m' % q → (x : ℤ) % q = (((s' : ℤ) * m - s * m') * (r * (s - s')) ^ (q - 2)) % q) := by
  obtain ⟨p, q, g, y, x, hp, h2, hq, -, rfl, rfl, -⟩ := hk
  have hodd := odd_of_prime hp h2
  obtain ⟨i, s, rfl, hi, hs, hr0, hs0⟩ := dsaSign_single hodd hq.pos h
  obtain ⟨i', s', rfl, hi', hs', -, -⟩ := dsaSign_single hodd hq.pos h'
  rw [← hi] at hi'
  subst hi'
  have hrq : g ^ (k % q) % p % q < q := Nat.mod_lt _ hq.pos
  generalize g ^ (k % q) % p % q = r at hr0 hs hs' hrq ⊢
  refine ⟨p, q, g, y, x, r, s, s', rfl, rfl, rfl, rfl, fun hne => ?_⟩
  haveI : Fact q.Prime := ⟨hq⟩
  have hsq : s < q := by rw [hs]; exact Nat.mod_lt _ hq.pos
  have zne : ∀ a : Nat, a < q → a ≠ 0 → (a : ZMod q) ≠ 0 := by
    intro a ha h0 hz
    rw [ZMod.natCast_eq_zero_iff] at hz
    exact h0 (Nat.eq_zero_of_dvd_of_lt hz ha)
  have es : (s : ZMod q) = i' * (m + x * r) := by rw [hs, ZMod.natCast_mod]; push_cast; rfl
  have es' : (s' : ZMod q) = i' * (m' + x * r) := by rw [hs', ZMod.natCast_mod]; push_cast; rfl
  have hr : (r : ZMod q) ≠ 0 := zne r hrq hr0
  have hi0 : (i' : ZMod q) ≠ 0 := by
    intro h0
    rw [h0, zero_mul] at es
    exact zne s hsq hs0 es
  have hm : (m : ZMod q) - m' ≠ 0 := by
    intro h0
    exact hne ((ZMod.natCast_eq_natCast_iff' m m' q).mp (sub_eq_zero.mp h0))
  have hd : (s : ZMod q) - s' = i' * (m - m') := by rw [es, es']; ring
  have hn : (s' : ZMod q) * m - s * m' = i' * (m - m') * r * x := by rw [es, es']; ring
  have ha : (r : ZMod q) * (s - s') ≠ 0 := by rw [hd]; exact mul_ne_zero hr (mul_ne_zero hi0 hm)
  have hf : ((r : ZMod q) * (s - s')) ^ (q - 2) * (r * (s - s')) = 1 := by
    rw [← pow_succ, show q - 2 + 1 = q - 1 by have := hq.two_le; omega]
    exact ZMod.pow_card_sub_one_eq_one ha
  have key : (x : ZMod q) = ((s' : ZMod q) * m - s * m') * (r * (s - s')) ^ (q - 2) := by
    have e : ((s' : ZMod q) * m - s * m') = (r * (s - s')) * x := by rw [hn, hd]; ring
    rw [e]
    calc (x : ZMod q) = x * (((r : ZMod q) * (s - s')) ^ (q - 2) * (r * (s - s'))) := by rw [hf, mul_one]
      _ = _ := by ring
  have hz : ((x : ℤ) : ZMod q) = ((((s' : ℤ) * m - s * m') * (r * (s - s')) ^ (q - 2) : ℤ) : ZMod q) := by
    push_cast; exact key
  exact (ZMod.intCast_eq_intCast_iff' _ _ q).mp hz

/-- Two processes that ask the generator for the same things in the same order, and for the first one in the same second, sign different data with the same nonce,
however it is made of what the generator returns: the secret of the key follows from the two signatures. -/
theorem C53_nonce_fails (g : Gmp) (r r' : Request) (rs rs' : List Request) (hs : (r :: rs).map Request.shape = (r' :: rs').map Request.shape)
    (hn : r.now % 2 ^ 32 = r'.now % 2 ^ 32) {outs outs' : List Random} {b b' : Bbs} (ho : runRequests g Bbs.start (r :: rs) = .ok (outs, b))
    (ho' : runRequests g Bbs.start (r' :: rs') = .ok (outs', b')) (nonce : List Random → Nat) {pub pri : List Nat} (hk : DsaKey pub pri) {m m' : Nat}
    {sig sig' : List Nat} (h : dsaSignInt [nonce outs] m pri pub = .ok sig) (h' : dsaSignInt [nonce outs'] m' pri pub = .ok sig') :
    ∃ p q g y x r s s', pub = [p, q, g, y] ∧ pri = [x] ∧ sig = [r, s] ∧ sig' = [r, s'] ∧
      (m % q ≠ m' % q → (x : ℤ) % q = (((s' : ℤ) * m - s * m') * (r * (s - s')) ^ (q - 2)) % q) := by
  have he := C53_same_second_fails g r r' rs rs' hs hn
  rw [ho, ho'] at he
  obtain ⟨rfl, -⟩ := Prod.mk.inj (Out.ok.inj he)
  exact C25_same_nonce_fails hk h h'

/-- A small key, p = 23, q = 11, g = 4, y = 8, x = 7, and two signatures with the nonce 5. -/
example : DsaKey [23, 11, 4, 8] [7] :=
  ⟨23, 11, 4, 8, 7, by norm_num, by decide, by norm_num, by decide, rfl, rfl, by decide⟩
example : dsaSignInt [5] 3 [7] [23, 11, 4, 8] = .ok [1, 2] ∧ dsaSignInt [5] 6 [7] [23, 11, 4, 8] = .ok [1, 7] ∧
    (7 : ℤ) % 11 = ((7 * 3 - 2 * 6) * (1 * (2 - 7)) ^ (11 - 2)) % 11 := by decide +kernel

end OpenPGP
