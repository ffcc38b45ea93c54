import Verif.Model.Pkcs1

/-!
# C19: PKCS#1 v1.5 signature encoding determines the digest
-/
namespace OpenPGP

/-- The DER prefix of the digest information for each hash algorithm, in octets, as printed in RFC 4880 5.2.2
and RFC 3447 9.2 (SHA-224 with the length octet 2d of the latter; RFC 4880 misprints 31). -/
def derPrefix (alg : UInt8) : Option Bytes :=
  if alg = 1 then some [0x30, 0x20, 0x30, 0x0C, 0x06, 0x08, 0x2A, 0x86, 0x48, 0x86, 0xF7, 0x0D, 0x02, 0x05, 0x05, 0x00, 0x04, 0x10]
  else if alg = 2 then some [0x30, 0x21, 0x30, 0x09, 0x06, 0x05, 0x2b, 0x0E, 0x03, 0x02, 0x1A, 0x05, 0x00, 0x04, 0x14]
  else if alg = 3 then some [0x30, 0x21, 0x30, 0x09, 0x06, 0x05, 0x2B, 0x24, 0x03, 0x02, 0x01, 0x05, 0x00, 0x04, 0x14]
  else if alg = 8 then some [0x30, 0x31, 0x30, 0x0d, 0x06, 0x09, 0x60, 0x86, 0x48, 0x01, 0x65, 0x03, 0x04, 0x02, 0x01, 0x05, 0x00, 0x04, 0x20]
  else if alg = 9 then some [0x30, 0x41, 0x30, 0x0d, 0x06, 0x09, 0x60, 0x86, 0x48, 0x01, 0x65, 0x03, 0x04, 0x02, 0x02, 0x05, 0x00, 0x04, 0x30]
  else if alg = 10 then some [0x30, 0x51, 0x30, 0x0d, 0x06, 0x09, 0x60, 0x86, 0x48, 0x01, 0x65, 0x03, 0x04, 0x02, 0x03, 0x05, 0x00, 0x04, 0x40]
  else if alg = 11 then some [0x30, 0x2d, 0x30, 0x0d, 0x06, 0x09, 0x60, 0x86, 0x48, 0x01, 0x65, 0x03, 0x04, 0x02, 0x04, 0x05, 0x00, 0x04, 0x1C]
  else none

theorem hashAlg_cases {h : UInt8} {n : Nat} (hn : hashLen h = some n) :
    h = 1 ∨ h = 2 ∨ h = 3 ∨ h = 8 ∨ h = 9 ∨ h = 10 ∨ h = 11 := by
  unfold hashLen at hn
  by_contra hc
  simp only [not_or] at hc
  obtain ⟨h1, h2, h3, h8, h9, h10, h11⟩ := hc
  simp [h1, h2, h3, h8, h9, h10, h11] at hn

theorem asn1Der_spec {h : UInt8} {n : Nat} (hn : hashLen h = some n) :
    ∃ der d, asn1Der h = some der ∧ derPrefix h = some d ∧ unhexlify der = .ok d ∧ der.length / 2 = d.length ∧
      d.length ≤ 19 ∧ n ≤ 64 ∧ 8 ≤ d.length := by
  rcases hashAlg_cases hn with rfl | rfl | rfl | rfl | rfl | rfl | rfl <;>
  · cases hn
    exact ⟨_, _, rfl, rfl, by decide, by decide, by decide, by decide, by decide⟩

/-- The encoding is `00 01 FF .. FF 00 DER digest`, with the DER prefix RFC 4880 prescribes for the algorithm. -/
theorem C19_encode {h : UInt8} {n k : Nat} {digest d : Bytes} (hn : hashLen h = some n)
    (hp : derPrefix h = some d) (hk : d.length + 3 + n ≤ k) (hk2 : k < 2 ^ 32) :
    emsa h digest k = .ok ([0, 1] ++ List.replicate (k - 3 - d.length - n) 0xff ++ [0] ++ d ++ digest) := by
  obtain ⟨der, d', h1, h2, h3, h4, h5, h6, _⟩ := asn1Der_spec hn
  rw [hp] at h2; cases h2
  have e1 : subSz k d.length = k - d.length := if_pos (by omega)
  have e2 : subSz (k - d.length) 3 = k - d.length - 3 := if_pos (by omega)
  have e3 : subSz (k - d.length - 3) n = k - d.length - 3 - n := if_pos (by omega)
  have e4 : k - d.length - 3 - n = k - 3 - d.length - n := by omega
  rw [emsa, h1, hn]
  simp only [mapAt, Out.ok_bind]
  rw [h4, e1, e2, e3, if_neg (by omega), h3, e4]
  rfl

/-- As an octet string the encoding has exactly the requested size. -/
theorem C19_length {h : UInt8} {n k : Nat} {digest d em : Bytes} (hn : hashLen h = some n) (hd : digest.length = n)
    (hp : derPrefix h = some d) (hk : d.length + 3 + n ≤ k) (hk2 : k < 2 ^ 32) (he : emsa h digest k = .ok em) :
    em.length = k := by
  rw [C19_encode hn hp hk hk2] at he; cases he; simp; omega

/-- A modulus too short for the digest information makes the call throw. -/
theorem C19_too_short_throws {h : UInt8} {n k : Nat} {digest d : Bytes} (hn : hashLen h = some n)
    (hp : derPrefix h = some d) (hk : k < d.length + 3 + n) : emsa h digest k = .throw := by
  obtain ⟨der, d', h1, h2, h3, h4, h5, h6, _⟩ := asn1Der_spec hn
  rw [hp] at h2; cases h2
  have hb : 2 ^ 63 ≤ subSz (subSz (subSz k d.length) 3) n := by
    unfold subSz
    split <;> split <;> split <;> omega
  rw [emsa, h1, hn]
  simp only [mapAt, Out.ok_bind]
  rw [h4, if_pos hb]

/-- Unknown hash algorithms throw. -/
theorem C19_unknown_throws (h : UInt8) (digest : Bytes) (k : Nat) (hn : hashLen h = none) : emsa h digest k = .throw := by
  rw [emsa, hn]
  cases asn1Der h <;> rfl

theorem replicate_ff_inj {a b : Nat} {s t : Bytes}
    (h : List.replicate a (0xff : UInt8) ++ 0 :: s = List.replicate b 0xff ++ 0 :: t) : a = b ∧ s = t := by
  induction a generalizing b with
  | zero =>
    cases b with
    | zero => simpa using h
    | succ b => rw [List.replicate_succ] at h; simp at h
  | succ a ih =>
    cases b with
    | zero => rw [List.replicate_succ] at h; simp at h
    | succ b =>
      rw [List.replicate_succ, List.replicate_succ] at h
      obtain ⟨h1, h2⟩ := ih (List.cons.inj h).2
      exact ⟨by omega, h2⟩

/-- No two algorithms' prefixes agree in the first eight octets. -/
theorem derPrefix_head {h h' : UInt8} {n n' : Nat} {d d' : Bytes} (hn : hashLen h = some n) (hn' : hashLen h' = some n')
    (hp : derPrefix h = some d) (hp' : derPrefix h' = some d') (he : d.take 8 = d'.take 8) : h = h' := by
  rcases hashAlg_cases hn with rfl | rfl | rfl | rfl | rfl | rfl | rfl <;>
  rcases hashAlg_cases hn' with rfl | rfl | rfl | rfl | rfl | rfl | rfl <;>
  first
  | rfl
  | (cases hp; cases hp'; exact absurd he (by decide))

/-- Two encodings of the same size are equal only if the hash algorithm and the digest are equal. -/
theorem C19_injective {h h' : UInt8} {n n' k : Nat} {x x' em : Bytes} (hn : hashLen h = some n) (hn' : hashLen h' = some n')
    (hk : k < 2 ^ 32) (he : emsa h x k = .ok em) (he' : emsa h' x' k = .ok em) : h = h' ∧ x = x' := by
  obtain ⟨der, d, h1, hp, _, _, _, _, h8⟩ := asn1Der_spec hn
  obtain ⟨der', d', h1', hp', _, _, _, _, h8'⟩ := asn1Der_spec hn'
  have hl : d.length + 3 + n ≤ k := by
    by_contra hc
    rw [C19_too_short_throws hn hp (by omega)] at he
    exact absurd he (by simp)
  have hl' : d'.length + 3 + n' ≤ k := by
    by_contra hc
    rw [C19_too_short_throws hn' hp' (by omega)] at he'
    exact absurd he' (by simp)
  rw [C19_encode hn hp hl hk] at he
  rw [C19_encode hn' hp' hl' hk] at he'
  have hh := Out.ok.inj (he.trans he'.symm)
  have hh2 : List.replicate (k - 3 - d.length - n) (0xff : UInt8) ++ 0 :: (d ++ x)
      = List.replicate (k - 3 - d'.length - n') 0xff ++ 0 :: (d' ++ x') := by simpa using hh
  have hh3 := (replicate_ff_inj hh2).2
  have h8e : d.take 8 = d'.take 8 := by
    have := congrArg (List.take 8) hh3
    rwa [List.take_append_of_le_length h8, List.take_append_of_le_length h8'] at this
  have heq := derPrefix_head hn hn' hp hp' h8e
  subst heq
  rw [hp] at hp'; cases hp'
  exact ⟨rfl, List.append_cancel_left hh3⟩

/-- The same through the integers RSA works on: equal integers mean equal algorithm and digest. -/
theorem C19_injective_integer {h h' : UInt8} {n n' k : Nat} {x x' em em' : Bytes} (hn : hashLen h = some n)
    (hn' : hashLen h' = some n') (hx : x.length = n) (hx' : x'.length = n') (hk : k < 2 ^ 32)
    (he : emsa h x k = .ok em) (he' : emsa h' x' k = .ok em') (hi : rawtompi em = rawtompi em') : h = h' ∧ x = x' := by
  obtain ⟨_, d, _, hp, _⟩ := asn1Der_spec hn
  obtain ⟨_, d', _, hp', _⟩ := asn1Der_spec hn'
  have hl : em.length = k := by
    refine C19_length hn hx hp ?_ hk he
    by_contra hc
    rw [C19_too_short_throws hn hp (by omega)] at he
    exact absurd he (by simp)
  have hl' : em'.length = k := by
    refine C19_length hn' hx' hp' ?_ hk he'
    by_contra hc
    rw [C19_too_short_throws hn' hp' (by omega)] at he'
    exact absurd he' (by simp)
  have h0 : 3 ≤ k := by
    by_contra hc
    rw [C19_too_short_throws hn hp (by omega)] at he
    exact absurd he (by simp)
  have hne : em ≠ [] := by rintro rfl; simp at hl; omega
  have hne' : em' ≠ [] := by rintro rfl; simp at hl'; omega
  rw [rawtompi_eq, rawtompi_eq, if_neg hne, if_neg hne'] at hi
  have := be_num em
  rw [Out.ok.inj hi, hl, ← hl', be_num] at this
  subst this
  exact C19_injective hn hn' hk he he'

/-- A concrete case: a SHA-1 digest for a 512-bit modulus. -/
example : ∃ em, emsa 2 (List.replicate 20 0xab) 64 = .ok em ∧ em.length = 64 ∧ em.take 3 = [0, 1, 0xff] :=
  ⟨_, rfl, by decide, by decide⟩

end OpenPGP
