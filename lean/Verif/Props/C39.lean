import Verif.Spec.BlockCipher
import Verif.Lemmas.Aes
import Verif.Lemmas.Des
import Verif.Lemmas.Blowfish
import Verif.Lemmas.Cast128
import Verif.Lemmas.Twofish
import Verif.Lemmas.Idea
import Verif.Lemmas.Camellia

/-!
# C39: block ciphers decrypt what they encrypt

`InvertsWith key` (in `Spec/BlockCipher.lean`): an object is constructed with `key`; for every block `decrypt` returns
what `encrypt` was given, on the same object and on another one, and `encrypt` what `decrypt` was given; data of any
other size makes both throw.
-/
namespace OpenPGP

/-- AES-128, AES-192, AES-256. -/
theorem C39_aes (key : Bytes) (h : key.length = 16 ∨ key.length = 24 ∨ key.length = 32) : aes.InvertsWith key :=
  aes_inverts key (by omega)

/-- DES. -/
theorem C39_des (key : Bytes) (h : key.length = 8) : des.InvertsWith key := des_inverts key h

/-- Blowfish, for every key size it accepts. -/
theorem C39_blowfish (key : Bytes) (h1 : 4 ≤ key.length) (h2 : key.length ≤ 112) : blowfish.InvertsWith key :=
  blowfish_inverts key h1 h2

/-- CAST-128, for keys of every size. -/
theorem C39_cast128 (key : Bytes) : cast128.InvertsWith key := cast128_inverts key

/-- Twofish with 128, 192 and 256 bit keys. -/
theorem C39_twofish (key : Bytes) (h : key.length = 16 ∨ key.length = 24 ∨ key.length = 32) : twofish.InvertsWith key :=
  twofish_inverts key (by omega)

/-- IDEA. -/
theorem C39_idea (key : Bytes) (h : key.length = 16) : idea.InvertsWith key := idea_inverts key h

/-- Camellia with 128, 192 and 256 bit keys. -/
theorem C39_camellia (key : Bytes) (h : key.length = 16 ∨ key.length = 24 ∨ key.length = 32) :
    camellia.InvertsWith key := camellia_inverts key (by omega)

/-- Triple-DES, only for keys whose first and third eight octets are equal (two-key Triple-DES); see
`C39_tdes_fails` for the others. -/
theorem C39_tdes_partial (key : Bytes) (h : key.length = 24) (h13 : key.take 8 = key.drop 16) : tdes.InvertsWith key :=
  tdes_inverts_two_key key (by omega) (by rw [h13, List.take_of_length_le (by simp; omega)])

/-- A key whose three parts differ: `TDES::decrypt` takes the keys in the same order as `encrypt` instead of the
reverse one (TDES.cpp:61-63), and does not return the block. -/
theorem C39_tdes_fails :
    let key : Bytes := [0x01, 0x23, 0x45, 0x67, 0x89, 0xab, 0xcd, 0xef, 0x23, 0x45, 0x67, 0x89, 0xab, 0xcd, 0xef, 0x01,
      0x45, 0x67, 0x89, 0xab, 0xcd, 0xef, 0x01, 0x23]
    let b : Bytes := [0x54, 0x68, 0x65, 0x20, 0x71, 0x75, 0x66, 0x63]
    ¬ tdes.InvertsWith key ∧
      (do let o ← tdes.make key
          let e ← (tdes.encrypt o b).2
          (tdes.decrypt o e).2) = .ok [0xca, 0x63, 0x31, 0x7a, 0xca, 0x4d, 0x47, 0x0d] := by
  intro key b
  have hc : (do let o ← tdes.make key
                let e ← (tdes.encrypt o b).2
                (tdes.decrypt o e).2) = .ok [0xca, 0x63, 0x31, 0x7a, 0xca, 0x4d, 0x47, 0x0d] := by decide +kernel
  refine ⟨?_, hc⟩
  rintro ⟨o, ho, h, _⟩
  obtain ⟨⟨e, he, _, _, hd⟩, _⟩ := h b rfl
  rw [ho, Out.ok_bind, he, Out.ok_bind, hd] at hc
  exact absurd hc (by decide)

/-- What `TDES::decrypt` does invert: the encryption of an object whose three keys come in the opposite order. -/
theorem C39_tdes_reversed (k1 k2 k3 : Bytes) (h1 : k1.length = 8) (h2 : k2.length = 8) (h3 : k3.length = 8)
    (b : Bytes) (hb : b.length = 8) :
    ∃ o o' e, tdes.make (k1 ++ k2 ++ k3) = .ok o ∧ tdes.make (k3 ++ k2 ++ k1) = .ok o' ∧
      (tdes.encrypt o b).2 = .ok e ∧ (tdes.decrypt o' e).2 = .ok b := by
  have cut : ∀ a b c : Bytes, a.length = 8 → b.length = 8 → c.length = 8 →
      tdes.make (a ++ b ++ c) = .ok ⟨true, a, b, c, false, true, false⟩ := by
    intro a b c ha hb hc
    rw [tdesSetkey_ok _ (by simp; omega), List.append_assoc, List.take_left' ha, List.drop_left' ha, List.take_left' hb,
      ← List.append_assoc, List.drop_left' (by simp; omega), List.take_of_length_le (by omega)]
  obtain ⟨o, ho⟩ : ∃ o : TdesObj, o = ⟨true, k1, k2, k3, false, true, false⟩ := ⟨_, rfl⟩
  obtain ⟨o', ho'⟩ : ∃ o' : TdesObj, o' = ⟨true, k3, k2, k1, false, true, false⟩ := ⟨_, rfl⟩
  obtain ⟨x, x1, x2, x3⟩ := tdesRun_ok o (by rw [ho]) b k1 hb h1 false
  obtain ⟨y, y1, y2, y3⟩ := tdesRun_ok o (by rw [ho]) x k2 x2 h2 true
  obtain ⟨z, z1, z2, z3⟩ := tdesRun_ok o (by rw [ho]) y k3 y2 h3 false
  refine ⟨o, o', z, by rw [ho]; exact cut _ _ _ h1 h2 h3, by rw [ho']; exact cut _ _ _ h3 h2 h1, ?_, ?_⟩
  · have f : o.k1 = k1 ∧ o.k2 = k2 ∧ o.k3 = k3 ∧ o.m1 = false ∧ o.m2 = true ∧ o.m3 = false := by
      rw [ho]; exact ⟨rfl, rfl, rfl, rfl, rfl, rfl⟩
    obtain ⟨f1, f2, f3, f4, f5, f6⟩ := f
    simp only [tdes, tdesEncrypt, f1, f2, f3, f4, f5, f6]
    rw [x1, Out.ok_bind, y1, Out.ok_bind, z1]
  · have e : ∀ d k m, tdesRun o' d k m = tdesRun o d k m := by
      intro d k m
      rw [ho, ho']; rfl
    have f : o'.k1 = k3 ∧ o'.k2 = k2 ∧ o'.k3 = k1 ∧ o'.m1 = false ∧ o'.m2 = true ∧ o'.m3 = false := by
      rw [ho']; exact ⟨rfl, rfl, rfl, rfl, rfl, rfl⟩
    obtain ⟨f1, f2, f3, f4, f5, f6⟩ := f
    simp only [tdes, tdesDecrypt, f1, f2, f3, f4, f5, f6, e]
    simp only [Bool.not_true, Bool.not_false] at x3 y3 z3 ⊢
    rw [z3, Out.ok_bind, y3, Out.ok_bind, x3]

/-! The hypotheses are met, and the blocks do change. -/

example : (do let o ← aes.make (List.replicate 16 1); (aes.encrypt o (List.replicate 16 2)).2) ≠
    .ok (List.replicate 16 2) := by decide +kernel
example : (do let o ← des.make [1, 2, 3, 4, 5, 6, 7, 8]; (des.encrypt o (List.replicate 8 2)).2) ≠
    .ok (List.replicate 8 2) := by decide +kernel
example : (do let o ← camellia.make (List.replicate 24 1); (camellia.encrypt o (List.replicate 16 2)).2) ≠
    .ok (List.replicate 16 2) := by decide +kernel
example : (do let o ← idea.make (List.replicate 16 1); (idea.encrypt o (List.replicate 8 2)).2) ≠
    .ok (List.replicate 8 2) := by decide +kernel
example : (List.replicate 24 (7 : UInt8)).take 8 = (List.replicate 24 (7 : UInt8)).drop 16 := by decide

end OpenPGP
