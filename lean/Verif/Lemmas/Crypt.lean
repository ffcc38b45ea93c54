import Verif.Model.Crypt
import Verif.Props.C13
import Verif.Props.C16
import Verif.Props.C20
import Verif.Props.C29

namespace OpenPGP

/-- One simple packet as the library writes it is read back, alone. -/
theorem readRaw_single {E : Type} (readE : Bytes → Out E) (rawE : E → Bytes) (fmt : Fmt) (b : Body E) (h : b.simpleWf)
    {raw : Bytes} (hraw : b.raw rawE = .ok raw) (hr : readable fmt b.tag raw) :
    readRaw (Pkt.parse readE) (packetOctets fmt b.tag raw) = .ok [⟨fmt, false, b⟩] := by
  obtain ⟨r, h1, h2⟩ := C13_simple readE rawE b h
  obtain rfl := Out.ok.inj (hraw.symm.trans h1)
  unfold readRaw
  refine readRawLoop_at (Pkt.parse readE) (fun p => p.fmt) (fun p => p.body.tag) (fun _ => raw) [⟨fmt, false, b⟩] _ 0 _
    (by simp) ?_ ?_ ?_
  · intro p hp
    obtain rfl := List.mem_singleton.mp hp
    exact hr
  · intro p hp data start rest hd hl
    obtain rfl := List.mem_singleton.mp hp
    change Pkt.parse readE b.tag fmt _ = _
    rw [Pkt.parse, h2 data start rest false hl hd]
    rfl
  · have := List.length_pos_iff.mpr (packetOctets_ne_nil fmt b.tag raw)
    simp only [List.length_singleton]; omega

theorem write_eq {E : Type} (rawE : E → Bytes) (fmt : Fmt) (b : Body E) {raw : Bytes} (hraw : b.raw rawE = .ok raw)
    (ht : validTag fmt b.tag) : Pkt.write rawE ⟨fmt, false, b⟩ = .ok (packetOctets fmt b.tag raw) := by
  rw [Pkt.write, hraw, Out.ok_bind]
  exact writePacket_eq _ _ _ ht

theorem meaningful_of {tags : List Nat} (h : Rfc.Derives .message tags) : messageMeaningful tags = .ok true :=
  (C29_meaningful_iff tags).mpr h

theorem decompress_compress {z : Zip} {alg : UInt8} (ha : alg ≤ 3) (src : Bytes) (hz : alg ≠ 0 → src ≠ [] → z.Undoes alg src) :
    ∃ c, compress z alg src = .ok c ∧ decompress z alg c = .ok src := by
  by_cases h : alg ≠ 0 ∧ src ≠ []
  · have h123 : alg = 1 ∨ alg = 2 ∨ alg = 3 := by
      have h0 : alg.toNat ≠ 0 := fun e => h.1 (UInt8.toNat_inj.mp e)
      have h3 : alg.toNat ≤ 3 := UInt8.le_iff_toNat_le.mp ha
      have : alg.toNat = 1 ∨ alg.toNat = 2 ∨ alg.toNat = 3 := by omega
      exact this.imp (fun e => UInt8.toNat_inj.mp e) (Or.imp (fun e => UInt8.toNat_inj.mp e) (fun e => UInt8.toNat_inj.mp e))
    obtain ⟨c, h1, h2, h3⟩ := hz h.1 h.2
    refine ⟨c, ?_, ?_⟩
    · rw [compress, if_pos h, if_pos h123, h1]
    · rw [decompress, if_pos ⟨h.1, h2⟩, if_pos h123, h3]
  · refine ⟨src, ?_, ?_⟩
    · rw [compress, if_neg h]
    · rw [decompress, if_neg h]

theorem encPrefix_eq {rand : Bytes} {bs : Nat} (h : rand.length = bs) (h2 : 2 ≤ bs) :
    ∃ p, encPrefix rand = .ok p ∧ p.length = bs + 2 ∧ p.take bs = rand ∧ p.drop bs = lastTwo bs p := by
  have e : subSz rand.length 2 = bs - 2 := by rw [h]; exact if_pos h2
  have hl : (rand.drop (bs - 2)).take 2 = rand.drop (bs - 2) := List.take_of_length_le (by rw [List.length_drop]; omega)
  refine ⟨rand ++ rand.drop (bs - 2), ?_, ?_, ?_, ?_⟩
  · unfold encPrefix
    rw [e, substr_take (by omega), Out.ok_bind, hl]; rfl
  · rw [List.length_append, List.length_drop]; omega
  · exact List.take_left' h
  · rw [List.drop_left' h, lastTwo, List.drop_append_of_le_length (by omega), List.take_append_of_le_length
      (by rw [List.length_drop]; omega), hl]

/-- The octets of a modification detection code packet. -/
theorem mdcOctets {h : Bytes} (hl : h.length = 20) : packetOctets .new 19 h = [0xd3, 0x14] ++ h := by
  simp only [packetOctets, writeNewDefinite, newLengthOctets]
  simp only [hl]
  rfl

/-- `Encrypt::data`'s packet, decrypted with the same key, gives back exactly the octets that were encrypted. -/
theorem encPacket_roundtrip {E : Type} {cr : Crypto} (hcr : cr.Ok) (rawE : E → Bytes) {sym : UInt8} {n bs : Nat}
    (hk : keyLen sym = some n) (hb : blockLen sym = some bs) {key p : Bytes} (hkey : key.length = n)
    (hp : p.length = bs + 2) (hrep : p.drop bs = lastTwo bs p) (mdc : Bool) (plain : Bytes) :
    ∃ d x, encPacket cr rawE sym mdc plain p key
        = .ok (⟨.new, false, if mdc then .seip 1 d else .symEnc d⟩ : Pkt E) ∧ d ≠ [] ∧
      usePgpCfbDecrypt cr sym (if mdc then 18 else 9) d key = .ok x ∧
      stripDecrypted cr bs (if mdc then 18 else 9) x = .ok (some plain) := by
  obtain ⟨c, hc1, hc2, hc3⟩ := hcr.cipher_ok sym n key hk hkey
  have hbs : bs = c.bs := Option.some.inj (hb.symm.trans hc3)
  subst hbs
  have hbp := hc2.bs_pos
  have hs0 : sym ≠ 0 := by rintro rfl; simp [keyLen] at hk
  have hset : symSetup cr sym key = .ok c := by rw [symSetup, hb]; simpa using hc1
  cases mdc with
  | true =>
    have hh : (cr.hash 2 (p ++ plain ++ [0xd3, 0x14])).length = 20 := hcr.hash_len 2 20 _ rfl
    set h := cr.hash 2 (p ++ plain ++ [0xd3, 0x14]) with hh'
    have hm : Pkt.write rawE (⟨.new, false, .mdc h⟩ : Pkt E) = .ok ([0xd3, 0x14] ++ h) := by
      rw [write_eq rawE .new (.mdc h) (raw := h) rfl (by simp [validTag, Body.tag])]
      exact congrArg Out.ok (mdcOctets hh)
    obtain ⟨ct, h1, h2, h3⟩ := C16_roundtrip c hc2 18 (Or.inr rfl) (plain ++ ([0xd3, 0x14] ++ h)) p hp hrep
    refine ⟨ct, p ++ (plain ++ ([0xd3, 0x14] ++ h)), ?_, ?_, ?_, ?_⟩
    · simp only [encPacket, if_true, hashUse, show (hashLen 2).isSome = true from rfl]
      rw [Out.ok_bind, ← hh', hm, Out.ok_bind, usePgpCfbEncrypt, if_neg hs0, hset, Out.ok_bind, h1, Out.ok_bind]
      rfl
    · intro h0
      rw [h0] at h2
      simp only [List.length_nil, List.length_append, hp] at h2
      omega
    · simp only [if_true]
      rw [usePgpCfbDecrypt, if_neg hs0, hset, Out.ok_bind, h3]
    · simp only [if_true]
      have hlen : (p ++ (plain ++ ([0xd3, 0x14] ++ h))).length = c.bs + 2 + plain.length + 22 := by
        simp only [List.length_append, hp, hh, List.length_cons, List.length_nil]; omega
      have e1 : subSz (p ++ (plain ++ ([0xd3, 0x14] ++ h))).length 20 = c.bs + 2 + plain.length + 2 := by
        rw [hlen]; exact if_pos (by omega)
      have ha : p ++ (plain ++ ([0xd3, 0x14] ++ h)) = (p ++ plain ++ [0xd3, 0x14]) ++ h := by simp
      have hla : (p ++ plain ++ [0xd3, 0x14]).length = c.bs + 2 + plain.length + 2 := by
        simp only [List.length_append, hp, List.length_cons, List.length_nil]
      have e2 : subSz (p ++ plain ++ [0xd3, 0x14]).length 2 = c.bs + 2 + plain.length := by
        rw [hla]; exact if_pos (by omega)
      have e3 : subSz (subSz (p ++ plain).length c.bs) 2 = plain.length := by
        have : (p ++ plain).length = c.bs + 2 + plain.length := by rw [List.length_append, hp]
        rw [this]
        have e : subSz (c.bs + 2 + plain.length) c.bs = 2 + plain.length := by
          unfold subSz; rw [if_pos (by omega)]; omega
        rw [e]; unfold subSz; rw [if_pos (by omega)]; omega
      unfold stripDecrypted
      rw [if_pos rfl, e1, substr_take (by omega), Out.ok_bind, substr_take (by omega), Out.ok_bind]
      rw [ha, List.drop_left' hla, List.take_of_length_le (l := h) (by omega), List.drop_zero, List.take_left' hla]
      rw [hashUse, show (hashLen 2).isSome = true from rfl, if_pos rfl, Out.ok_bind, ← hh',
        if_neg (not_not.mpr rfl), e2, substr_take (by omega), Out.ok_bind, List.drop_zero,
        List.take_left' (by rw [List.length_append, hp])]
      rw [e3, substr_take (by rw [List.length_append, hp]; omega), Out.ok_bind, List.drop_left' hp,
        List.take_of_length_le (le_refl _)]
      rfl
  | false =>
    obtain ⟨ct, h1, h2, h3⟩ := C16_roundtrip c hc2 9 (Or.inl rfl) plain p hp hrep
    refine ⟨ct, p ++ plain, ?_, ?_, ?_, ?_⟩
    · simp only [encPacket, Bool.false_eq_true, if_false]
      rw [usePgpCfbEncrypt, if_neg hs0, hset, Out.ok_bind, h1, Out.ok_bind]
      rfl
    · intro h0
      rw [h0] at h2
      simp only [List.length_nil, List.length_append, hp] at h2
      omega
    · simp only [Bool.false_eq_true, if_false]
      rw [usePgpCfbDecrypt, if_neg hs0, hset, Out.ok_bind, h3]
    · simp only [Bool.false_eq_true, if_false]
      have e3 : subSz (subSz (p ++ plain).length c.bs) 2 = plain.length := by
        have : (p ++ plain).length = c.bs + 2 + plain.length := by rw [List.length_append, hp]
        rw [this]
        have e : subSz (c.bs + 2 + plain.length) c.bs = 2 + plain.length := by
          unfold subSz; rw [if_pos (by omega)]; omega
        rw [e]; unfold subSz; rw [if_pos (by omega)]; omega
      unfold stripDecrypted
      rw [if_neg (by decide), e3, substr_take (by rw [List.length_append, hp]; omega), Out.ok_bind, List.drop_left' hp,
        List.take_of_length_le (le_refl _)]
      rfl

end OpenPGP
