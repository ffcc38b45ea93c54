import Verif.Model.CryptSigned
import Verif.Model.CryptPka
import Verif.Props.C27

/-!
# Encryption without a signer
-/
namespace OpenPGP
variable {E : Type}

/-- `Encrypt::data` without a signer is the function of C27. -/
theorem encryptDataS_none (w : World E) (a : EncArgs) (key : Bytes) : encryptDataS w a none key = encryptData w.cr w.z w.rawE a w.rand key := by
  rw [encryptDataS, encryptData, plainOctets]
  split
  · rfl
  · cases h : a.plain (E := E) w.z w.rawE <;> rfl

/-- `Encrypt::sym` without a signer. -/
theorem encryptSymS_none (w : World E) (a : EncArgs) (pass : Bytes) (kh : UInt8) :
    encryptSymS w a none pass kh = encryptSym w.cr w.z w.rawE a w.salt w.rand pass kh := by
  simp only [encryptSymS, encryptSym, encryptDataS_none]
  rfl

/-- `Encrypt::pka` without a signer. -/
theorem encryptPkaS_none (w : World E) (a : EncArgs) (k : KeyObj E) :
    encryptPkaS w a none k = encryptPka w.cr w.z w.rawE a k w.sessionKey w.padding w.ephemeral w.rand := by
  simp only [encryptPkaS, encryptPka, encryptDataS_none]
  rfl

/-- The packets of a message encrypted with a passphrase. -/
theorem encryptSym_shape {cr : Crypto} {z : Zip} {rawE : E → Bytes} {a : EncArgs} {salt rand pass : Bytes} {kh : UInt8} {m : Msg E}
    (h : encryptSym cr z rawE a salt rand pass kh = .ok m) (hne : m ≠ .empty) :
    ∃ d, m = ⟨none, [⟨.new, false, .skesk ⟨4, a.sym, some (.iterated kh salt 96), none⟩⟩, ⟨.new, false, if a.mdc then .seip 1 d else .symEnc d⟩]⟩ ∧
      salt.length = 8 := by
  rw [encryptSym] at h
  split at h
  · exact absurd (Out.ok.inj h).symm hne
  · split at h
    · cases h
    · rename_i hs
      simp only [Tag3.setS2K, Out.ok_bind] at h
      obtain ⟨sk, -, h⟩ := Out.bind_eq_ok.mp h
      obtain ⟨key, -, h⟩ := Out.bind_eq_ok.mp h
      obtain ⟨e, he, h⟩ := Out.bind_eq_ok.mp h
      cases e with
      | none => exact absurd (Out.ok.inj h).symm hne
      | some e =>
        obtain rfl := Out.ok.inj h
        rw [encryptData] at he
        split at he
        · cases he
        · obtain ⟨plain, -, he⟩ := Out.bind_eq_ok.mp he
          obtain ⟨bs, -, he⟩ := Out.bind_eq_ok.mp he
          split at he
          · cases he
          · obtain ⟨p, -, he⟩ := Out.bind_eq_ok.mp he
            obtain ⟨e', hp, he⟩ := Out.bind_eq_ok.mp he
            obtain rfl := Option.some.inj (Out.ok.inj he)
            rw [encPacket] at hp
            split at hp
            · rename_i hm
              obtain ⟨_, -, hp⟩ := Out.bind_eq_ok.mp hp
              obtain ⟨_, -, hp⟩ := Out.bind_eq_ok.mp hp
              obtain ⟨d, -, hp⟩ := Out.bind_eq_ok.mp hp
              obtain rfl := Out.ok.inj hp
              exact ⟨d, by rw [if_pos hm], by omega⟩
            · rename_i hm
              obtain ⟨d, -, hp⟩ := Out.bind_eq_ok.mp hp
              obtain rfl := Out.ok.inj hp
              exact ⟨d, by rw [if_neg hm], by omega⟩

/-- A message encrypted to a key is not a compressed one. -/
theorem encryptPka_comp {cr : Crypto} {z : Zip} {rawE : E → Bytes} {a : EncArgs} {k : KeyObj E} {sk draws rand : Bytes} {eph : Nat} {m : Msg E}
    (h : encryptPka cr z rawE a k sk draws eph rand = .ok m) : m.comp = none := by
  rw [encryptPka] at h
  split at h
  · obtain rfl := Out.ok.inj h; rfl
  · obtain ⟨g, -, h⟩ := Out.bind_eq_ok.mp h
    split at h
    · obtain rfl := Out.ok.inj h; rfl
    · obtain ⟨rv, -, h⟩ := Out.bind_eq_ok.mp h
      cases rv with
      | yes => obtain rfl := Out.ok.inj h; rfl
      | error => obtain rfl := Out.ok.inj h; rfl
      | no =>
        dsimp only at h
        split at h
        · obtain rfl := Out.ok.inj h; rfl
        · obtain ⟨kid, -, h⟩ := Out.bind_eq_ok.mp h
          obtain ⟨l, -, h⟩ := Out.bind_eq_ok.mp h
          split at h
          · cases h
          · obtain ⟨c, -, h⟩ := Out.bind_eq_ok.mp h
            obtain ⟨e, -, h⟩ := Out.bind_eq_ok.mp h
            cases e <;> (obtain rfl := Out.ok.inj h; rfl)

end OpenPGP
