import Verif.Lemmas.Crypt

/-!
# C27: passphrase encryption is invertible
-/
namespace OpenPGP

section
variable {E : Type} {cr : Crypto} {z : Zip}

/-- Encryption parameters the library implements: cipher with key of `n` and blocks of `bs` octets, compression none, ZIP,
ZLIB or BZip2, a real hash algorithm, and a file name that fits its length octet. -/
structure EncArgs.Usable (a : EncArgs) (n bs : Nat) : Prop where
  key : keyLen a.sym = some n
  block : blockLen a.sym = some bs
  comp : a.comp ≤ 3
  hash : (hashLen a.hash).isSome = true
  name : a.filename.length < 256

/-- The packets made for the data have readable lengths (C05): the literal packet and, with compression, the compressed one. -/
def EncArgs.Fits (z : Zip) (a : EncArgs) : Prop :=
  readableLen .new (6 + a.filename.length + a.data.length) ∧
  (a.comp ≠ 0 → ∀ c, compress z a.comp (packetOctets .new 11 (Tag11.raw ⟨0x62, a.filename, 0, a.data⟩)) = .ok c →
    readableLen .new (1 + c.length))

/-- The compression chosen, if any, works on the literal data packet and is undone by decompression (C54). -/
def EncArgs.Undoes (z : Zip) (a : EncArgs) : Prop :=
  a.comp ≠ 0 → z.Undoes a.comp (packetOctets .new 11 (Tag11.raw ⟨0x62, a.filename, 0, a.data⟩))

theorem keyLen_le {s : UInt8} {n : Nat} (h : keyLen s = some n) : s ≤ 13 := by
  revert h
  unfold keyLen
  split
  · rename_i h; rintro -; rcases h with rfl | rfl | rfl | rfl | rfl <;> decide
  · split
    · rename_i h; rintro -; rcases h with rfl | rfl | rfl <;> decide
    · split
      · rename_i h; rintro -; rcases h with rfl | rfl | rfl <;> decide
      · simp

theorem hashLen_range {s : UInt8} (h : (hashLen s).isSome = true) : 1 ≤ s ∧ s ≤ 11 := by
  unfold hashLen at h
  by_cases h1 : s = 1
  · subst h1; decide
  by_cases h2 : s = 2
  · subst h2; decide
  by_cases h3 : s = 3
  · subst h3; decide
  by_cases h4 : s = 8
  · subst h4; decide
  by_cases h5 : s = 9
  · subst h5; decide
  by_cases h6 : s = 10
  · subst h6; decide
  by_cases h7 : s = 11
  · subst h7; decide
  simp [h1, h2, h3, h4, h5, h6, h7] at h

theorem EncArgs.Usable.valid {a : EncArgs} {n bs : Nat} (h : a.Usable n bs) : a.valid = true := by
  have h1 := keyLen_le h.key
  have h2 := hashLen_range h.hash
  have h3 := h.comp
  simp [EncArgs.valid, h1, h2, h3]

theorem litRaw_length (a : EncArgs) :
    (Tag11.raw ⟨0x62, a.filename, 0, a.data⟩).length = 6 + a.filename.length + a.data.length := by
  simp only [Tag11.raw, List.length_append, List.length_cons, List.length_nil, be_length]; omega

/-- The octets that get encrypted are read back as the literal packet, through the compressed one if there is one. -/
theorem plain_read (rawE : E → Bytes) (readE : Bytes → Out E) {a : EncArgs} {n bs : Nat} (hz : a.Undoes z) (h : a.Usable n bs)
    (hf : a.Fits z) (depth : Nat) (hd : 2 ≤ depth) :
    ∃ plain, a.plain z rawE = .ok plain ∧
      Msg.readRaw z readE depth plain
        = .ok ⟨if a.comp = 0 then none else some (.new, false, a.comp), [EncArgs.literal a]⟩ := by
  have hlr : (EncArgs.literal (E := E) a).body.raw rawE = .ok (Tag11.raw ⟨0x62, a.filename, 0, a.data⟩) := rfl
  set lit := Tag11.raw ⟨0x62, a.filename, 0, a.data⟩ with hlit
  have hreadl : readable .new 11 lit := ⟨by simp [validTag], rfl, by rw [hlit, litRaw_length]; exact hf.1⟩
  have hwl : Pkt.write rawE (EncArgs.literal (E := E) a) = .ok (packetOctets .new 11 lit) :=
    write_eq rawE .new (.literal ⟨0x62, a.filename, 0, a.data⟩) rfl hreadl.1
  have hrl : readRaw (Pkt.parse readE) (packetOctets .new 11 lit) = .ok [EncArgs.literal a] :=
    readRaw_single readE rawE .new (.literal ⟨0x62, a.filename, 0, a.data⟩) ⟨h.name, Nat.two_pow_pos 32⟩ rfl hreadl
  have hinner : ∀ (k : Nat) (comp : Option (Fmt × Bool × UInt8)),
      Msg.readLoop z readE (k + 1) comp (packetOctets .new 11 lit) = .ok ⟨comp, [EncArgs.literal a]⟩ := by
    intro k comp
    rw [Msg.readLoop, hrl, Out.ok_bind]
    have : messageMeaningful ([EncArgs.literal (E := E) a].map (·.body.tag)) = .ok true :=
      meaningful_of (.msgLiteral .literal)
    rw [this]
    rfl
  obtain ⟨k, rfl⟩ : ∃ k, depth = k + 2 := ⟨depth - 2, by omega⟩
  by_cases h0 : a.comp = 0
  · refine ⟨packetOctets .new 11 lit, ?_, ?_⟩
    · rw [EncArgs.plain, hwl, Out.ok_bind, if_neg (not_not.mpr h0)]; rfl
    · rw [if_pos h0]; exact hinner (k + 1) none
  · obtain ⟨c, hc1, hc2⟩ := decompress_compress h.comp (packetOctets .new 11 lit) (fun h' _ => hz h')
    have hreadc : readable .new 8 (a.comp :: c) :=
      ⟨by simp [validTag], rfl, by rw [List.length_cons, Nat.add_comm]; exact hf.2 h0 c hc1⟩
    have hrc : readRaw (Pkt.parse readE) (packetOctets .new 8 (a.comp :: c)) = .ok [⟨.new, false, .compressed a.comp c⟩] :=
      readRaw_single readE rawE .new (.compressed a.comp c) trivial rfl hreadc
    refine ⟨packetOctets .new 8 (a.comp :: c), ?_, ?_⟩
    · rw [EncArgs.plain, hwl, Out.ok_bind, if_pos h0, hc1, Out.ok_bind]
      exact write_eq rawE .new (.compressed a.comp c) rfl hreadc.1
    · rw [if_neg h0, Msg.readRaw, Msg.readLoop, hrc, Out.ok_bind]
      have : messageMeaningful ([(⟨.new, false, .compressed a.comp c⟩ : Pkt E)].map (·.body.tag)) = .ok true :=
        meaningful_of (.msgCompressed .compressed)
      rw [this, Out.ok_bind]
      simp only [Bool.not_true, Bool.false_eq_true, if_false, hc2, Out.ok_bind]
      exact hinner k _

/-- Octets encrypted under a session key and put behind a session key packet are read by `Decrypt::data` under the same key as what they
are read as without encryption. -/
theorem data_frame (hcr : cr.Ok) (rawE : E → Bytes) (readE : Bytes → Out E) {a : EncArgs} {n bs : Nat}
    (h : a.Usable n bs) (rand key : Bytes) (hr : rand.length = bs) (hkey : key.length = n) (depth : Nat) (plain : Bytes) (r : Out (Msg E))
    (hp2 : Msg.readRaw z readE depth plain = r) :
    ∃ p e, encPrefix rand = .ok p ∧ encPacket cr rawE a.sym a.mdc plain p key = .ok e ∧ e.body.tag = (if a.mdc then 18 else 9) ∧
      ∀ (k : Pkt E), (k.body.tag = 1 ∨ k.body.tag = 3) → decryptData cr z readE depth a.sym ⟨none, [k, e]⟩ key = r := by
  obtain ⟨b2, hb2, hge⟩ := keyLen_blockLen h.key
  have hbs : b2 = bs := Option.some.inj (hb2.symm.trans h.block)
  subst hbs
  obtain ⟨p, hq1, hq2, -, hq4⟩ := encPrefix_eq hr hge
  obtain ⟨d, x, h1, h2, h3, h4⟩ := encPacket_roundtrip hcr rawE h.key h.block hkey hq2 hq4 a.mdc plain
  refine ⟨p, ⟨.new, false, if a.mdc then .seip 1 d else .symEnc d⟩, hq1, h1, ?_, ?_⟩
  · cases a.mdc <;> rfl
  · intro k hk
    have hm : Msg.meaningful (⟨none, [k, ⟨.new, false, if a.mdc then .seip 1 d else .symEnc d⟩]⟩ : Msg E) = .ok true := by
      have hesk : Rfc.Derives .eskSeq [k.body.tag] := by
        rcases hk with hk | hk <;> rw [hk]
        · exact .eskFirst .eskPublic
        · exact .eskFirst .eskSymmetric
      apply meaningful_of
      cases a.mdc
      · exact .msgEncrypted (.encKeys hesk .dataPlain)
      · exact .msgEncrypted (.encKeys hesk .dataProtected)
    have hfe : firstEncrypted [k, (⟨.new, false, if a.mdc then .seip 1 d else .symEnc d⟩ : Pkt E)]
        = some (if a.mdc then 18 else 9, d) := by
      obtain ⟨f, pt, b⟩ := k
      cases b <;> simp [Body.tag] at hk <;> cases a.mdc <;> rfl
    rw [decryptData, hm, Out.ok_bind]
    simp only [Bool.not_true, Bool.false_eq_true, if_false]
    rw [hfe]
    simp only [if_neg h2]
    rw [h3, Out.ok_bind, h.block, mapAt, Out.ok_bind, h4, Out.ok_bind]
    exact hp2

/-- Data encrypted by `Encrypt::data` under a session key and put behind session key packets is recovered by `Decrypt::data`
under the same key. `keys` are the session key packets, one at least. -/
theorem data_roundtrip (hcr : cr.Ok) (rawE : E → Bytes) (readE : Bytes → Out E) {a : EncArgs} {n bs : Nat} (hz : a.Undoes z)
    (h : a.Usable n bs) (hf : a.Fits z) (rand key : Bytes) (hr : rand.length = bs) (hkey : key.length = n)
    (depth : Nat) (hd : 2 ≤ depth) :
    ∃ e, encryptData cr z rawE a rand key = .ok (some e) ∧ e.body.tag = (if a.mdc then 18 else 9) ∧
      ∀ (k : Pkt E), (k.body.tag = 1 ∨ k.body.tag = 3) →
        decryptData cr z readE depth a.sym ⟨none, [k, e]⟩ key
          = .ok ⟨if a.comp = 0 then none else some (.new, false, a.comp), [EncArgs.literal a]⟩ := by
  obtain ⟨plain, hp1, hp2⟩ := plain_read rawE readE hz h hf depth hd
  obtain ⟨p, e, h1, h2, h3, h4⟩ := data_frame hcr rawE readE h rand key hr hkey depth plain _ hp2
  refine ⟨e, ?_, h3, h4⟩
  rw [encryptData, h.valid]
  simp only [Bool.not_true, Bool.false_eq_true, if_false]
  rw [hp1, Out.ok_bind, h.block, mapAt, Out.ok_bind, if_neg (not_not.mpr hr), h1, Out.ok_bind, h2, Out.ok_bind]
  rfl

/-- What the two sides of encryption with a passphrase agree on: the session key, and that decryption comes down to that of the data packet. -/
theorem sym_frame (hcr : cr.Ok) (z : Zip) (readE : Bytes → Out E) {a : EncArgs} {n bs D : Nat} (h : a.Usable n bs) (salt pass : Bytes) (hs : salt.length = 8)
    (keyHash : UInt8) (hD : hashLen keyHash = some D) (depth : Nat) :
    ∃ key, key.length = n ∧ (⟨4, a.sym, some (.iterated keyHash salt 96), none⟩ : Tag3).getSessionKey cr pass = .ok (a.sym :: key) ∧
      substr (a.sym :: key) 1 (subSz (a.sym :: key).length 1) = .ok key ∧
      ∀ e : Pkt E, (e.body.tag = 18 ∨ e.body.tag = 9) →
        decryptSym cr z readE depth ⟨none, [⟨.new, false, .skesk ⟨4, a.sym, some (.iterated keyHash salt 96), none⟩⟩, e]⟩ pass =
          decryptData cr z readE depth a.sym ⟨none, [⟨.new, false, .skesk ⟨4, a.sym, some (.iterated keyHash salt 96), none⟩⟩, e]⟩ key := by
  have hsw : (S2K.iterated keyHash salt 96).wf := hs
  obtain ⟨key, hk1, hk2, -⟩ := C20_run cr hcr (.iterated keyHash salt 96) hsw D hD pass n n
    (Nat.le_mul_of_pos_right n (by have := S2K.hashLen_pos hD; omega))
  set t : Tag3 := ⟨4, a.sym, some (.iterated keyHash salt 96), none⟩ with ht
  have hsk : t.getSessionKey cr pass = .ok (a.sym :: key) := by
    simp only [ht, Tag3.getSessionKey, h.key, mapAt, Out.ok_bind, hk1]; rfl
  have hsub : substr (a.sym :: key) 1 (subSz (a.sym :: key).length 1) = .ok key := by
    have e : subSz (a.sym :: key).length 1 = key.length := by
      rw [List.length_cons]; unfold subSz; rw [if_pos (by omega)]; rfl
    rw [e, substr_take (by simp)]
    simp
  refine ⟨key, hk2, hsk, hsub, fun e he => ?_⟩
  rw [decryptSym]
  have hm : Msg.meaningful (⟨none, [⟨.new, false, .skesk t⟩, e]⟩ : Msg E) = .ok true := by
    apply meaningful_of
    change Rfc.Derives .message [3, e.body.tag]
    rcases he with he | he <;> rw [he]
    · exact .msgEncrypted (.encKeys (v := [3]) (.eskFirst .eskSymmetric) .dataProtected)
    · exact .msgEncrypted (.encKeys (v := [3]) (.eskFirst .eskSymmetric) .dataPlain)
  rw [hm, Out.ok_bind]
  simp only [Bool.not_true, Bool.false_eq_true, if_false, firstSkesk]
  rw [hsk, Out.ok_bind, show charAt (a.sym :: key) 0 = .ok a.sym from rfl, Out.ok_bind, hsub, Out.ok_bind]

/-- What `Encrypt::sym` returns, `Decrypt::sym` turns back into the literal data packet with the same file name and data, for
every passphrase, salt, random prefix, cipher, hash, with and without compression and integrity protection. Missing from the
full property: literal or compressed bodies of 8128..8383 octets (`C27_8128_fails`) and of 4 GiB and more. -/
theorem C27_roundtrip_partial (hcr : cr.Ok) (rawE : E → Bytes) (readE : Bytes → Out E) (a : EncArgs) (hz : a.Undoes z) (n bs D : Nat)
    (h : a.Usable n bs) (hf : a.Fits z) (salt rand pass : Bytes) (hs : salt.length = 8) (hr : rand.length = bs)
    (keyHash : UInt8) (hD : hashLen keyHash = some D) (depth : Nat) (hd : 2 ≤ depth) :
    ∃ m r, encryptSym cr z rawE a salt rand pass keyHash = .ok m ∧ m.packets.map (·.body.tag) = [3, if a.mdc then 18 else 9] ∧
      decryptSym cr z readE depth m pass = .ok r ∧
      r.packets = [⟨.new, false, .literal ⟨0x62, a.filename, 0, a.data⟩⟩] ∧
      r.comp = if a.comp = 0 then none else some (.new, false, a.comp) := by
  obtain ⟨key, hk2, hsk, hsub, hdec⟩ := sym_frame hcr z readE h salt pass hs keyHash hD depth
  obtain ⟨e, he1, he2, he3⟩ := data_roundtrip hcr rawE readE hz h hf rand key hr hk2 depth hd
  refine ⟨⟨none, [⟨.new, false, .skesk ⟨4, a.sym, some (.iterated keyHash salt 96), none⟩⟩, e]⟩,
    ⟨if a.comp = 0 then none else some (.new, false, a.comp), [EncArgs.literal a]⟩, ?_, ?_, ?_, rfl, rfl⟩
  · rw [encryptSym, h.valid]
    simp only [Bool.not_true, Bool.false_eq_true, if_false]
    rw [if_neg (not_not.mpr hs)]
    simp only [Tag3.setS2K, Out.ok_bind]
    rw [hsk, Out.ok_bind, hsub, Out.ok_bind, he1, Out.ok_bind]
    rfl
  · simp only [List.map_cons, List.map_nil, he2]; rfl
  · rw [hdec e (by rw [he2]; cases a.mdc <;> simp)]
    exact he3 _ (Or.inr rfl)

end

/-- Compression that does nothing but put a marker octet in front, used to show that hypotheses can be met. -/
def demoZip : Zip := ⟨fun a s => .ok (a :: s), fun a s => match s with | b :: t => if a = b then .ok t else .throw | [] => .throw⟩

theorem demoZip_ok (alg : UInt8) (src : Bytes) : demoZip.Undoes alg src := by
  exact ⟨alg :: src, rfl, by simp, by simp [demoZip]⟩

def c27Args : EncArgs := ⟨[97, 46, 116], [1, 2, 3, 4], 9, 2, true, 8⟩

example : demoCrypto.Ok ∧ c27Args.Undoes demoZip ∧ c27Args.Usable 32 16 ∧ c27Args.Fits demoZip ∧ hashLen 8 = some 32 := by
  refine ⟨demoCrypto_ok, fun _ => demoZip_ok _ _, ⟨rfl, rfl, by decide, rfl, by decide⟩, ⟨by simp [readableLen, c27Args], ?_⟩, rfl⟩
  intro _ c hc
  have : compress demoZip c27Args.comp (packetOctets .new 11 (Tag11.raw ⟨0x62, c27Args.filename, 0, c27Args.data⟩))
      = .ok (2 :: packetOctets .new 11 (Tag11.raw ⟨0x62, c27Args.filename, 0, c27Args.data⟩)) := rfl
  obtain rfl := Out.ok.inj (this.symm.trans hc)
  simp only [readableLen]
  decide

/-- Uncompressed data whose literal packet body has 8128..8383 octets is encrypted without complaint and can never be decrypted
again, whatever the passphrase. -/
theorem C27_8128_fails {E : Type} {cr : Crypto} {z : Zip} (hcr : cr.Ok) (rawE : E → Bytes) (readE : Bytes → Out E) (a : EncArgs)
    (n bs D : Nat) (h : a.Usable n bs) (h0 : a.comp = 0) (hlo : 8128 ≤ 6 + a.filename.length + a.data.length)
    (hhi : 6 + a.filename.length + a.data.length ≤ 8383) (salt rand pass : Bytes) (hs : salt.length = 8)
    (hr : rand.length = bs) (keyHash : UInt8) (hD : hashLen keyHash = some D) :
    ∃ m, encryptSym cr z rawE a salt rand pass keyHash = .ok m ∧ m.packets ≠ [] ∧
      ∀ (depth : Nat) (r : Msg E), decryptSym cr z readE depth m pass ≠ .ok r := by
  have hsw : (S2K.iterated keyHash salt 96).wf := hs
  obtain ⟨key, hk1, hk2, -⟩ := C20_run cr hcr (.iterated keyHash salt 96) hsw D hD pass n n
    (Nat.le_mul_of_pos_right n (by have := S2K.hashLen_pos hD; omega))
  set t : Tag3 := ⟨4, a.sym, some (.iterated keyHash salt 96), none⟩ with ht
  have hsk : t.getSessionKey cr pass = .ok (a.sym :: key) := by
    simp only [ht, Tag3.getSessionKey, h.key, mapAt, Out.ok_bind, hk1]; rfl
  have hsub : substr (a.sym :: key) 1 (subSz (a.sym :: key).length 1) = .ok key := by
    have e : subSz (a.sym :: key).length 1 = key.length := by
      rw [List.length_cons]; unfold subSz; rw [if_pos (by omega)]; rfl
    rw [e, substr_take (by simp)]
    simp
  set lit := Tag11.raw ⟨0x62, a.filename, 0, a.data⟩ with hlit
  have hll : lit.length = 6 + a.filename.length + a.data.length := litRaw_length a
  have hwl : Pkt.write rawE (EncArgs.literal (E := E) a) = .ok (packetOctets .new 11 lit) :=
    write_eq rawE .new (.literal ⟨0x62, a.filename, 0, a.data⟩) rfl (by simp [validTag, Body.tag])
  obtain ⟨b2, hb2, hge⟩ := keyLen_blockLen h.key
  have hbs : b2 = bs := Option.some.inj (hb2.symm.trans h.block)
  subst hbs
  obtain ⟨p, hq1, hq2, -, hq4⟩ := encPrefix_eq hr hge
  obtain ⟨d, x, h1, h2, h3, h4⟩ := encPacket_roundtrip hcr rawE h.key h.block hk2 hq2 hq4 a.mdc (packetOctets .new 11 lit)
  refine ⟨⟨none, [⟨.new, false, .skesk t⟩, ⟨.new, false, if a.mdc then .seip 1 d else .symEnc d⟩]⟩, ?_, by simp, ?_⟩
  · rw [encryptSym, h.valid]
    simp only [Bool.not_true, Bool.false_eq_true, if_false]
    rw [if_neg (not_not.mpr hs)]
    simp only [Tag3.setS2K, Out.ok_bind]
    rw [← ht, hsk, Out.ok_bind, hsub, Out.ok_bind, encryptData, h.valid]
    simp only [Bool.not_true, Bool.false_eq_true, if_false]
    rw [EncArgs.plain, hwl, Out.ok_bind, if_neg (not_not.mpr h0), Out.pure_eq, Out.ok_bind, h.block, mapAt, Out.ok_bind,
      if_neg (not_not.mpr hr), hq1, Out.ok_bind, h1, Out.ok_bind]
    rfl
  · intro depth r
    have hm : Msg.meaningful (⟨none, [⟨.new, false, .skesk t⟩, ⟨.new, false, if a.mdc then .seip 1 d else .symEnc d⟩]⟩ : Msg E)
        = .ok true := by
      apply meaningful_of
      cases a.mdc
      · exact .msgEncrypted (.encKeys (v := [3]) (.eskFirst .eskSymmetric) .dataPlain)
      · exact .msgEncrypted (.encKeys (v := [3]) (.eskFirst .eskSymmetric) .dataProtected)
    have hfe : firstEncrypted [(⟨.new, false, .skesk t⟩ : Pkt E), ⟨.new, false, if a.mdc then .seip 1 d else .symEnc d⟩]
        = some (if a.mdc then 18 else 9, d) := by cases a.mdc <;> rfl
    rw [decryptSym, hm, Out.ok_bind]
    simp only [Bool.not_true, Bool.false_eq_true, if_false, firstSkesk]
    rw [hsk, Out.ok_bind, show charAt (a.sym :: key) 0 = .ok a.sym from rfl, Out.ok_bind, hsub, Out.ok_bind]
    rw [decryptData, hm, Out.ok_bind]
    simp only [Bool.not_true, Bool.false_eq_true, if_false]
    rw [hfe]
    simp only [if_neg h2]
    rw [h3, Out.ok_bind, h.block, mapAt, Out.ok_bind, h4, Out.ok_bind]
    cases depth with
    | zero => simp [Msg.readRaw, Msg.readLoop]
    | succ k =>
      simp only [Msg.readRaw, Msg.readLoop]
      intro hc
      obtain ⟨ps, hps, -⟩ := Out.bind_eq_ok.mp hc
      have := C06_sequence_fails (Pkt.parse readE) 11 lit [] (by omega) (by omega) (by omega) _
        (writePacket_eq .new 11 lit (by simp [validTag])) ps
      rw [List.append_nil] at this
      exact this hps

/-- 9000 octets under AES-256 with a three-letter name: `Usable`, and outside the range; 8200 octets: inside it. -/
example : (EncArgs.mk [97, 46, 116] (List.replicate 8200 65) 9 0 true 8).Usable 32 16 ∧
    8128 ≤ 6 + [97, 46, 116].length + (List.replicate 8200 65).length ∧
    6 + [97, 46, 116].length + (List.replicate 8200 65).length ≤ 8383 := by
  refine ⟨⟨rfl, rfl, by decide, rfl, by decide⟩, ?_, ?_⟩ <;>
  · rw [List.length_replicate]; decide

/-- A session key stored encrypted in the packet (`set_session_key`) is what `get_session_key` returns for the same passphrase. -/
theorem C27_session_key {cr : Crypto} (hcr : cr.Ok) (t : Tag3) (s : S2K) (hs : t.s2k = some s) (hw : s.wf) (n D : Nat)
    (hk : keyLen t.sym = some n) (hD : hashLen s.hash = some D) (pass sk : Bytes) (h2 : 2 ≤ sk.length) :
    ∃ t', t.setSessionKey cr pass sk = .ok t' ∧ t'.getSessionKey cr pass = .ok sk ∧
      t'.s2k = t.s2k ∧ t'.sym = t.sym ∧ t'.version = t.version := by
  obtain ⟨key, hk1, hk2, -⟩ := C20_run cr hcr s hw D hD pass n n
    (Nat.le_mul_of_pos_right n (by have := S2K.hashLen_pos hD; omega))
  obtain ⟨c, hc1, hc2, hc3⟩ := hcr.cipher_ok t.sym n key hk hk2
  have hs0 : t.sym ≠ 0 := by intro h; rw [h] at hk; simp [keyLen] at hk
  have hset : symSetup cr t.sym key = .ok c := by rw [symSetup, hc3]; simpa using hc1
  obtain ⟨e, he1, -, he3⟩ := C17_roundtrip c hc2 sk (List.replicate c.bs 0) List.length_replicate
  refine ⟨{ t with esk := some e }, ?_, ?_, rfl, rfl, rfl⟩
  · unfold Tag3.setSessionKey
    rw [hs]
    simp only
    rw [if_pos (by omega), hk, mapAt, Out.ok_bind, hk1, Out.ok_bind, hc3, mapAt, Out.ok_bind, useNormalCfbEncrypt, if_neg hs0,
      hset, Out.ok_bind, he1, Out.ok_bind]
    rfl
  · unfold Tag3.getSessionKey
    simp only [hs]
    rw [hk, mapAt, Out.ok_bind, hk1, Out.ok_bind, hc3, mapAt, Out.ok_bind, useNormalCfbDecrypt, if_neg hs0,
      hset, Out.ok_bind, he3]

example : (S2K.iterated 8 [1, 2, 3, 4, 5, 6, 7, 8] 96).wf ∧ keyLen 9 = some 32 ∧ hashLen 8 = some 32 ∧
    2 ≤ (9 :: List.replicate 32 7 : Bytes).length := ⟨rfl, rfl, rfl, by decide⟩

/-- A session-key packet for a passphrase takes a string-to-key specifier exactly if it has a salt (RFC 4880 5.3), and keeps it. -/
theorem C27_salted_only (t t' : Tag3) (s : Option S2K) :
    t.setS2K s = .ok t' ↔ ((∃ h salt, s = some (.salted h salt)) ∨ ∃ h salt c, s = some (.iterated h salt c)) ∧ t' = { t with s2k := s } := by
  cases s with
  | none => simp [Tag3.setS2K]
  | some s => cases s <;> simp [Tag3.setS2K, eq_comm]

example : ∃ t', (⟨4, 9, none, none⟩ : Tag3).setS2K (some (.iterated 2 [1, 2, 3, 4, 5, 6, 7, 8] 96)) = .ok t' := ⟨_, rfl⟩

end OpenPGP
