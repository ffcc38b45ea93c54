import Verif.Lemmas.Cfb

/-!
# C17: plain CFB decryption inverts encryption
-/
namespace OpenPGP

/-- Decrypting what was encrypted gives the data, for every block cipher, IV of block length and data of any length. -/
theorem C17_roundtrip (c : Cipher) (hc : c.Ok) (data iv : Bytes) (hiv : iv.length = c.bs) :
    ∃ ct, normalCfbEncrypt c data iv = .ok ct ∧ ct.length = data.length ∧ normalCfbDecrypt c ct iv = .ok data := by
  have hl := cfbE_length hc data.length iv data hiv le_rfl
  refine ⟨_, normalCfbEncrypt_eq hc data iv hiv, hl, ?_⟩
  rw [normalCfbDecrypt_eq hc _ iv hiv, hl, cfbD_cfbE hc _ iv data hiv le_rfl]

/-- Encrypting what was decrypted gives the ciphertext back: every octet string is the ciphertext of exactly one text. -/
theorem C17_roundtrip' (c : Cipher) (hc : c.Ok) (ct iv : Bytes) (hiv : iv.length = c.bs) :
    ∃ p, normalCfbDecrypt c ct iv = .ok p ∧ p.length = ct.length ∧ normalCfbEncrypt c p iv = .ok ct := by
  have hl := cfbD_length hc ct.length iv ct hiv le_rfl
  refine ⟨_, normalCfbDecrypt_eq hc ct iv hiv, hl, ?_⟩
  rw [normalCfbEncrypt_eq hc _ iv hiv, hl, cfbE_cfbD hc _ iv ct hiv le_rfl]

/-- The code computes standard cipher feedback. -/
theorem C17_is_cfb (c : Cipher) (hc : c.Ok) (data iv : Bytes) (hiv : iv.length = c.bs) :
    normalCfbEncrypt c data iv = .ok (cfbE c data.length iv data) ∧
    normalCfbDecrypt c data iv = .ok (cfbD c data.length iv data) :=
  ⟨normalCfbEncrypt_eq hc data iv hiv, normalCfbDecrypt_eq hc data iv hiv⟩

/-- An IV of another length is refused (unless there is nothing to do). -/
theorem C17_bad_iv (c : Cipher) (data iv : Bytes) (hiv : iv.length ≠ c.bs) (hd : data ≠ []) :
    normalCfbEncrypt c data iv = .throw ∧ normalCfbDecrypt c data iv = .throw := by
  have h := List.length_pos_iff.mpr hd
  constructor
  · rw [normalCfbEncrypt, cfbEncLoop, if_pos (by simpa using h), Cipher.encrypt, if_neg hiv]; rfl
  · rw [normalCfbDecrypt, cfbDecLoop, if_pos h, Cipher.encrypt, if_neg hiv]; rfl

/-- A cipher meeting the hypotheses: block size 8, the block complemented. -/
def demoCipher : Cipher := ⟨8, fun b => b.map (· ^^^ 0x5a)⟩

theorem demoCipher_ok : demoCipher.Ok := ⟨by decide, by intro b hb; simpa [demoCipher] using hb⟩

example : normalCfbEncrypt demoCipher [1, 2, 3, 4, 5, 6, 7, 8, 9, 10] (List.replicate 8 0) =
    .ok [0x5b, 0x58, 0x59, 0x5e, 0x5f, 0x5c, 0x5d, 0x52, 8, 8] := by decide

end OpenPGP
