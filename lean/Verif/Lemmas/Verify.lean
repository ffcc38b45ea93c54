import Verif.Spec.Signature
import Verif.Model.Verify

/-!
# The public-key part of verification
-/
namespace OpenPGP
open Rfc

theorem vecAt_eq_ok {α : Type} {l : List α} {i : Nat} {a : α} : vecAt l i = .ok a ↔ l[i]? = some a := by
  unfold vecAt
  cases l[i]? <;> simp

theorem hashLen_pos {h : UInt8} {n : Nat} (hn : hashLen h = some n) : 0 < n := by
  rcases hashAlg_cases hn with rfl | rfl | rfl | rfl | rfl | rfl | rfl <;> (cases hn; decide)

theorem rsaVerify_iff {hash : UInt8} {digest : Bytes} {pub sig : List Nat} (hl : hashLen hash = some digest.length)
    (hb : ∀ n, pub[0]? = some n → n.log2 < 2 ^ 32) :
    (∃ n em, vecAt pub 0 = .ok n ∧ emsa hash digest (bitsize n / 8) = .ok em ∧ rsaVerify em sig pub = .ok true) ↔
      RsaHolds hash digest pub sig := by
  obtain ⟨_, d, _, hd, _⟩ := asn1Der_spec hl
  have hv : ∀ {n e s : Nat} {em : Bytes}, pub[0]? = some n → pub[1]? = some e → sig[0]? = some s → em ≠ [] → n % 2 = 1 →
      rsaVerify em sig pub = .ok (decide (s ^ e % n = num em)) := by
    intro n e s em h0 h1 h2 h3 h4
    rw [rsaVerify, rawtompi_eq, if_neg h3, Out.ok_bind, rsaVerifyInt, vecAt_eq_ok.mpr h2, Out.ok_bind, rsaEncrypt, vecAt_eq_ok.mpr h0,
      vecAt_eq_ok.mpr h1, Out.ok_bind, Out.ok_bind, powm_odd h4, Out.ok_bind]
    rfl
  have hem : ∀ {n : Nat} {em : Bytes}, n.log2 < 2 ^ 32 → emsa hash digest (bitsize n / 8) = .ok em →
      d.length + 3 + digest.length ≤ (n.log2 + 1) / 8 ∧ em = encodedDigest d digest ((n.log2 + 1) / 8) := by
    intro n em hn he
    rw [bitsize] at he
    have hk : d.length + 3 + digest.length ≤ (n.log2 + 1) / 8 := by
      by_contra hc
      rw [C19_too_short_throws hl hd (by omega)] at he
      exact absurd he (by simp)
    refine ⟨hk, ?_⟩
    rw [C19_encode hl hd hk (by omega)] at he
    exact (Out.ok.inj he).symm
  constructor
  · rintro ⟨n, em, h0, he, h⟩
    rw [vecAt_eq_ok] at h0
    obtain ⟨hk, rfl⟩ := hem (hb n h0) he
    have hne : encodedDigest d digest ((n.log2 + 1) / 8) ≠ [] := by simp [encodedDigest]
    have h' := h
    rw [rsaVerify, rawtompi_eq, if_neg hne, Out.ok_bind, rsaVerifyInt] at h'
    obtain ⟨s, hs, h'⟩ := Out.bind_eq_ok.mp h'
    obtain ⟨m, hm, -⟩ := Out.bind_eq_ok.mp h'
    rw [rsaEncrypt, vecAt_eq_ok.mpr h0] at hm
    obtain ⟨e, h1, hm⟩ := Out.bind_eq_ok.mp hm
    rw [Out.ok_bind] at hm
    have hodd : n % 2 = 1 := by
      rw [powm] at hm
      split at hm
      · exact absurd hm (by simp)
      · omega
    rw [vecAt_eq_ok] at hs h1
    rw [hv h0 h1 hs hne hodd] at h
    exact ⟨n, e, s, d, h0, h1, hs, hd, hodd, hk, by simpa using h⟩
  · rintro ⟨n, e, s, der, h0, h1, h2, hder, hodd, hk, h⟩
    rw [hd] at hder
    obtain rfl := Option.some.inj hder
    have hne : encodedDigest d digest ((n.log2 + 1) / 8) ≠ [] := by simp [encodedDigest]
    have := hb n h0
    refine ⟨n, encodedDigest d digest ((n.log2 + 1) / 8), vecAt_eq_ok.mpr h0, ?_, ?_⟩
    · rw [bitsize, C19_encode hl hd hk (by omega)]; rfl
    · rw [hv h0 h1 h2 hne hodd, h]; simp

theorem dsaVerify_holds {digest : Bytes} {pub sig : List Nat} (hne : digest ≠ []) :
    dsaVerify digest sig pub = .ok true ↔ DsaHolds digest pub sig := by
  have key : ∀ {p q g y r s : Nat}, pub[0]? = some p → pub[1]? = some q → pub[2]? = some g → pub[3]? = some y → sig[0]? = some r →
      sig[1]? = some s → dsaVerify digest sig pub = dsaVerifyInt (num digest) [r, s] [p, q, g, y] := by
    intro p q g y r s h0 h1 h2 h3 h4 h5
    rw [dsaVerify, rawtompi_eq, if_neg hne, Out.ok_bind]
    simp only [dsaVerifyInt, vecAt, h0, h1, h2, h3, h4, h5, List.getElem?_cons_zero, List.getElem?_cons_succ]
  constructor
  · intro h
    have h' := h
    rw [dsaVerify, rawtompi_eq, if_neg hne, Out.ok_bind, dsaVerifyInt] at h'
    obtain ⟨r, hr, h'⟩ := Out.bind_eq_ok.mp h'
    obtain ⟨s, hs, h'⟩ := Out.bind_eq_ok.mp h'
    obtain ⟨p, hp, h'⟩ := Out.bind_eq_ok.mp h'
    obtain ⟨q, hq, h'⟩ := Out.bind_eq_ok.mp h'
    obtain ⟨g, hg, h'⟩ := Out.bind_eq_ok.mp h'
    obtain ⟨y, hy, h'⟩ := Out.bind_eq_ok.mp h'
    rw [vecAt_eq_ok] at hr hs hp hq hg hy
    split at h'
    · exact absurd (Out.ok.inj h') (by decide)
    · split at h'
      · exact absurd h' (by simp)
      · rename_i hq0
        dsimp only at h'
        obtain ⟨a, ha, -⟩ := Out.bind_eq_ok.mp h'
        have hodd : p % 2 = 1 := by
          rw [powm] at ha
          split at ha
          · exact absurd ha (by simp)
          · omega
        have hq0 : 0 < q := by omega
        rw [key hp hq hg hy hr hs, dsaVerify_iff hodd hq0] at h
        simp only [Out.ok.injEq, decide_eq_true_eq] at h
        refine ⟨p, q, g, y, r, s, invert s q, hp, hq, hg, hy, hr, hs, hodd, h.1, h.2.1, invert_lt hq0, fun hc => invert_spec hq0 hc,
          fun hc => ?_, h.2.2⟩
        rw [invert, if_neg hc]
  · rintro ⟨p, q, g, y, r, s, w, hp, hq, hg, hy, hr, hs, hodd, h1, h2, hw, hi, hn, h⟩
    have hq0 : 0 < q := by omega
    rw [key hp hq hg hy hr hs, dsaVerify_iff hodd hq0]
    have : invert s q = w := by
      by_cases hc : Nat.gcd s q = 1
      · exact invert_unique (hi hc) hw
      · rw [invert, if_neg hc, hn hc]
    rw [this]
    simp [h1, h2, h]

/-- Verification on numbers answers yes exactly when the equation holds. -/
theorem verifyPka_iff {hash pka : UInt8} {digest : Bytes} {pub sig : List Nat} (hl : hashLen hash = some digest.length)
    (hb : ∀ n, pub[0]? = some n → n.log2 < 2 ^ 32) :
    verifyPka digest hash pka pub sig = .ok .yes ↔ SignatureHolds hash pka digest pub sig := by
  have hne : digest ≠ [] := by
    rintro rfl
    exact absurd (hashLen_pos hl) (by simp)
  have hob : ∀ {x : Out Bool}, (x >>= fun b => (pure (Verdict.ofBool b) : Out Verdict)) = .ok .yes ↔ x = .ok true := by
    intro x
    rcases x with (_ | _) | _ | _ | _ <;> simp [Verdict.ofBool]
  rw [verifyPka, SignatureHolds]
  by_cases h1 : pka = 1 ∨ pka = 3
  · have h17 : pka ≠ 17 := by rcases h1 with rfl | rfl <;> decide
    rw [if_pos h1]
    simp only [h1, h17, true_and, false_and, or_false]
    rw [← rsaVerify_iff hl hb]
    constructor
    · intro h
      obtain ⟨n, hn, h⟩ := Out.bind_eq_ok.mp h
      obtain ⟨em, he, h⟩ := Out.bind_eq_ok.mp h
      exact ⟨n, em, hn, he, hob.mp h⟩
    · rintro ⟨n, em, hn, he, h⟩
      rw [hn, Out.ok_bind, he, Out.ok_bind]
      exact hob.mpr h
  · rw [if_neg h1]
    by_cases h17 : pka = 17
    · rw [if_pos h17]
      simp only [h1, false_and, false_or]
      rw [and_iff_right h17]
      rw [← dsaVerify_holds hne]
      exact hob
    · rw [if_neg h17]
      simp [h1, h17]

end OpenPGP
