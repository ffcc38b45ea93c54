import Verif.Lemmas.Includes

/-!
# C01  Hex codec is lossless
-/
namespace OpenPGP

/-- The characters a hex string may contain. -/
def Spec.isHex (c : UInt8) : Prop :=
  (48 ≤ c.toNat ∧ c.toNat ≤ 57) ∨ (65 ≤ c.toNat ∧ c.toNat ≤ 70) ∨ (97 ≤ c.toNat ∧ c.toNat ≤ 102)

/-- Value of a hex character by position in the alphabet. -/
def Spec.hexVal (c : UInt8) : Nat :=
  if c.toNat ≤ 57 then c.toNat - 48 else if c.toNat ≤ 70 then c.toNat - 55 else c.toNat - 87

/-- Round trip, for every octet string and both cases. -/
theorem C01_hex_roundtrip (s : Bytes) (caps : Bool) : unhexlify (hexlify s caps) = .ok s := by
  simp [unhexlify, hexlify_length, unhexLoop_hexlify]

example : hexlify [0x00, 0x7f, 0xff, 0xa5] true = [48, 48, 55, 70, 70, 70, 65, 53] := by decide
example : unhexlify (hexlify [0x00, 0x7f, 0xff, 0xa5] true) = .ok [0x00, 0x7f, 0xff, 0xa5] := by decide

/-- The encoding is two characters per octet. -/
theorem C01_hex_length (s : Bytes) (caps : Bool) : (hexlify s caps).length = 2 * s.length :=
  hexlify_length s caps

/-- Every octet is written as its two hex digits, high nibble first. -/
theorem C01_hex_digits (s : Bytes) (caps : Bool) (i : Nat) (h : i < s.length) :
    ∃ a b, (hexlify s caps)[2 * i]? = some a ∧ (hexlify s caps)[2 * i + 1]? = some b ∧
      Spec.isHex a ∧ Spec.isHex b ∧ Spec.hexVal a * 16 + Spec.hexVal b = s[i].toNat := by
  induction s generalizing i with
  | nil => simp at h
  | cons c s ih =>
    have e : hexlify (c :: s) caps
        = hexDigit caps (c.toNat / 16 % 16) :: hexDigit caps (c.toNat % 16) :: hexlify s caps := by
      simp [hexlify, hexlifyChar, makehex]
    rw [e]
    cases i with
    | zero =>
      refine ⟨_, _, rfl, rfl, ?_⟩
      have key : ∀ (caps : Bool) (d : Fin 16), (let a := hexDigit caps d.val
          ((48 ≤ a.toNat ∧ a.toNat ≤ 57) ∨ (65 ≤ a.toNat ∧ a.toNat ≤ 70) ∨
            (97 ≤ a.toNat ∧ a.toNat ≤ 102)) ∧ Spec.hexVal a = d.val) := by decide
      have h1 := key caps ⟨c.toNat / 16 % 16, Nat.mod_lt _ (by omega)⟩
      have h2 := key caps ⟨c.toNat % 16, Nat.mod_lt _ (by omega)⟩
      simp only at h1 h2
      refine ⟨h1.1, h2.1, ?_⟩
      rw [h1.2, h2.2]
      have := c.toNat_lt
      simp; omega
    | succ i =>
      have hi : i < s.length := by simpa using h
      obtain ⟨a, b, h1, h2, h3⟩ := ih i hi
      refine ⟨a, b, ?_, ?_, ?_⟩
      · rw [show 2 * (i + 1) = 2 * i + 1 + 1 by ring]; simpa using h1
      · rw [show 2 * (i + 1) + 1 = 2 * i + 1 + 1 + 1 by ring]; simpa using h2
      · simpa using h3

theorem isHex_iff (c : UInt8) : (unhexChar c = none) ↔ ¬ Spec.isHex c := by
  have : ∀ c : Fin 256, (unhexChar (UInt8.ofNat c.val) = none) ↔
      ¬ ((48 ≤ c.val ∧ c.val ≤ 57) ∨ (65 ≤ c.val ∧ c.val ≤ 70) ∨ (97 ≤ c.val ∧ c.val ≤ 102)) := by
    decide +kernel
  have h := this ⟨c.toNat, c.toNat_lt⟩
  simp only [UInt8.ofNat_toNat] at h
  exact h

theorem unhexLoop_throws (s : Bytes) (hl : s.length % 2 = 0) :
    unhexLoop s = .throw ↔ ∃ c ∈ s, ¬ Spec.isHex c := by
  induction s using unhexLoop.induct with
  | case1 a b r h =>
    simp only [unhexLoop, h]
    simp only [true_iff]
    exact ⟨a, by simp, (isHex_iff a).mp h⟩
  | case2 a b r x ha hb =>
    simp only [unhexLoop, ha, hb, true_iff]
    exact ⟨b, by simp, (isHex_iff b).mp hb⟩
  | case3 a b r x ha y hb ih =>
    have e : unhexLoop (a :: b :: r) = (do let q ← unhexLoop r; return ((x <<< 4) ||| y) :: q) := by
      simp only [unhexLoop, ha, hb]
    have h1 : Spec.isHex a := by
      by_contra hc; rw [(isHex_iff a).mpr hc] at ha; cases ha
    have h2 : Spec.isHex b := by
      by_contra hc; rw [(isHex_iff b).mpr hc] at hb; cases hb
    rw [e]
    simp only [List.mem_cons, exists_eq_or_imp, h1, h2, not_true_eq_false, false_or]
    rw [← ih (by simp at hl; omega)]
    cases unhexLoop r <;> simp
  | case4 s h =>
    match s, h with
    | [], _ => simp [unhexLoop]
    | [x], _ => simp at hl
    | x :: y :: r, h => exact absurd rfl (h x y r)

/-- Exactly the strings of odd length or with a non-hex character are rejected; there is no
undefined behaviour on any input. -/
theorem C01_unhexlify_rejects (s : Bytes) :
    unhexlify s = .throw ↔ (s.length % 2 = 1 ∨ ∃ c ∈ s, ¬ Spec.isHex c) := by
  unfold unhexlify
  split
  · simp [*]
  · rename_i h
    rw [unhexLoop_throws s (by omega)]
    simp [h]

theorem unhexLoop_defined (s : Bytes) : (unhexLoop s).defined := by
  induction s using unhexLoop.induct with
  | case1 a b r h => simp [unhexLoop, h]
  | case2 a b r x ha hb => simp [unhexLoop, ha, hb]
  | case3 a b r x ha y hb ih =>
    simp only [unhexLoop, ha, hb]
    exact Out.defined_bind ih (by simp)
  | case4 s h =>
    match s, h with
    | [], _ => simp [unhexLoop]
    | [x], _ => simp [unhexLoop]
    | x :: y :: r, h => exact absurd rfl (h x y r)

theorem C01_unhexlify_defined (s : Bytes) : (unhexlify s).defined := by
  unfold unhexlify
  split
  · simp
  · exact unhexLoop_defined s

example : unhexlify [48, 71] = .throw := by decide
example : unhexlify [48] = .throw := by decide

end OpenPGP
