import Verif.Props.C24
import Verif.Props.C25
import Mathlib.FieldTheory.Finite.Basic
import Verif.Props.C53

/-!
# C24: draws that come twice

Two ElGamal encryptions for one key with the same random number: who knows what one of them hides knows what the other one hides.
-/
namespace OpenPGP

/-- The message of the second is computed from that of the first and the two encryptions. -/
theorem C24_same_draw_fails {pub pri : List Nat} (hk : ElgamalKey pub pri) {p : Nat} (hp0 : pub[0]? = some p) {m m' draw : Nat} (h0 : 0 < m) (hm : m < p) (hm' : m' < p)
    {c c' : List Nat} (h : elgamalEncrypt draw m pub = .ok c) (h' : elgamalEncrypt draw m' pub = .ok c') :
    ∃ r s s', c = [r, s] ∧ c' = [r, s'] ∧ m' = s' * m * s ^ (p - 2) % p := by
  obtain ⟨p', g, y, x, hp, h2, hg, rfl, rfl, hy⟩ := hk
  obtain rfl : p' = p := by simpa using hp0
  have hodd := odd_of_prime hp h2
  simp only [elgamalEncrypt, vecAt, List.getElem?_cons_zero, List.getElem?_cons_succ, Out.ok_bind, powm_odd hodd, if_neg hp.ne_zero] at h h'
  cases h
  cases h'
  refine ⟨_, _, _, rfl, rfl, ?_⟩
  generalize draw % p' = k
  haveI : Fact p'.Prime := ⟨hp⟩
  have hy0 : (y : ZMod p') ≠ 0 := by
    rw [hy, ZMod.natCast_mod, Nat.cast_pow]
    exact pow_ne_zero _ (fun hz => hg ((ZMod.natCast_eq_zero_iff _ _).mp hz))
  have hm0 : (m : ZMod p') ≠ 0 := fun hz => by
    rw [ZMod.natCast_eq_zero_iff] at hz
    exact absurd (Nat.le_of_dvd h0 hz) (by omega)
  have ha : (m : ZMod p') * (y : ZMod p') ^ k ≠ 0 := mul_ne_zero hm0 (pow_ne_zero _ hy0)
  have hf : ((m : ZMod p') * (y : ZMod p') ^ k) ^ (p' - 2) * (m * (y : ZMod p') ^ k) = 1 := by
    rw [← pow_succ, show p' - 2 + 1 = p' - 1 by have := hp.two_le; omega]
    exact ZMod.pow_card_sub_one_eq_one ha
  have key : (m' : ZMod p') = ((m' * (y ^ k % p') % p' * m * (m * (y ^ k % p') % p') ^ (p' - 2) : ℕ) : ZMod p') := by
    push_cast
    simp only [ZMod.natCast_mod, Nat.cast_mul, Nat.cast_pow]
    calc (m' : ZMod p') = m' * (((m : ZMod p') * (y : ZMod p') ^ k) ^ (p' - 2) * (m * (y : ZMod p') ^ k)) := by rw [hf, mul_one]
      _ = _ := by ring
  rw [ZMod.natCast_eq_natCast_iff'] at key
  rw [← key, Nat.mod_eq_of_lt hm']

/-- Two processes that ask the generator for the same things in the same order, and for the first one in the same second, encrypt for one key with the same random number. -/
theorem C53_draw_fails (g : Gmp) (r r' : Request) (rs rs' : List Request) (hs : (r :: rs).map Request.shape = (r' :: rs').map Request.shape)
    (hn : r.now % 2 ^ 32 = r'.now % 2 ^ 32) {outs outs' : List Random} {b b' : Bbs} (ho : runRequests g Bbs.start (r :: rs) = .ok (outs, b))
    (ho' : runRequests g Bbs.start (r' :: rs') = .ok (outs', b')) (draw : List Random → Nat) {pub pri : List Nat} (hk : ElgamalKey pub pri) {p : Nat}
    (hp0 : pub[0]? = some p) {m m' : Nat} (h0 : 0 < m) (hm : m < p) (hm' : m' < p) {c c' : List Nat} (h : elgamalEncrypt (draw outs) m pub = .ok c)
    (h' : elgamalEncrypt (draw outs') m' pub = .ok c') :
    ∃ r s s', c = [r, s] ∧ c' = [r, s'] ∧ m' = s' * m * s ^ (p - 2) % p := by
  have he := C53_same_second_fails g r r' rs rs' hs hn
  rw [ho, ho'] at he
  obtain ⟨rfl, -⟩ := Prod.mk.inj (Out.ok.inj he)
  exact C24_same_draw_fails hk hp0 h0 hm hm' h h'

/-- p = 23, g = 5, x = 6, y = 8: with the random number 3 the messages 7 and 12. -/
example : ElgamalKey [23, 5, 8] [6] := ⟨23, 5, 8, 6, by norm_num, by decide, by decide, rfl, rfl, by decide⟩
example : elgamalEncrypt 3 7 [23, 5, 8] = .ok [10, 19] ∧ elgamalEncrypt 3 12 [23, 5, 8] = .ok [10, 3] ∧ 12 = 3 * 7 * 19 ^ (23 - 2) % 23 := by decide +kernel

end OpenPGP
