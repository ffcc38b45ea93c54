import Verif.Props.C50
import Verif.Props.C49
import Verif.Props.C27

/-!
# C51: the algorithm tables, the cipher classes and the hash classes fit together

For every algorithm number of the library's tables the class it stands for is constructible with keys of the tabled size and works
on blocks of the tabled size; so what is proved of the packet layer over arbitrary primitives (`Crypto.Ok`) holds
of the library with its own primitives.
-/
namespace OpenPGP

/-- Encrypting changes no cipher object, in any of the classes, whatever the object's state and the data. -/
theorem C51_encrypt_keeps_object (c : Σ S : Type, SymCipher S) (hc : c ∈ cipherClasses) (o : c.1) (b : Bytes) :
    (c.2.encrypt o b).1 = o := by
  simp only [cipherClasses, List.mem_cons, List.not_mem_nil, or_false] at hc
  rcases hc with rfl | rfl | rfl | rfl | rfl | rfl | rfl | rfl
  · simp only [aes, aesEncrypt]
    split_ifs <;> rfl
  · rfl
  · rfl
  · rfl
  · rfl
  · simp only [idea, ideaEncrypt]
    split_ifs <;> rfl
  · rfl
  · rfl

/-- With this key the class constructs an object that encrypts every block to a block and throws for other data. -/
def SymCipher.EncryptsWith {S : Type} (c : SymCipher S) (key : Bytes) : Prop :=
  ∃ o, c.make key = .ok o ∧
    (∀ b : Bytes, 8 * b.length = c.blocksize → ∃ e, (c.encrypt o b).2 = .ok e ∧ e.length = b.length) ∧
    (∀ b : Bytes, 8 * b.length ≠ c.blocksize → (c.encrypt o b).2 = .throw)

theorem SymCipher.InvertsWith.encrypts {S : Type} {c : SymCipher S} {key : Bytes} (h : c.InvertsWith key) :
    c.EncryptsWith key := by
  obtain ⟨o, ho, h1, h2⟩ := h
  refine ⟨o, ho, fun b hb => ?_, fun b hb => (h2 b hb).1⟩
  obtain ⟨⟨e, h1, h2, _⟩, _⟩ := h1 b hb
  exact ⟨e, h1, h2⟩

theorem tdes_encrypts (key : Bytes) (h : 24 ≤ key.length) : tdes.EncryptsWith key := by
  refine ⟨_, tdesSetkey_ok key h, fun b hb => ?_, fun b hb => (tdes_wrong_size _ b ?_).1⟩
  · have hb : b.length = 8 := by simp only [tdes] at hb; omega
    obtain ⟨x, hx, lx, -⟩ := tdesRun_ok (tdesObjOf key) rfl b (key.take 8) hb (by simp; omega) false
    obtain ⟨y, hy, ly, -⟩ := tdesRun_ok (tdesObjOf key) rfl x ((key.drop 8).take 8) lx (by simp; omega) true
    obtain ⟨z, hz, lz, -⟩ := tdesRun_ok (tdesObjOf key) rfl y ((key.drop 16).take 8) ly (by simp; omega) false
    refine ⟨z, ?_, by omega⟩
    show tdesEncrypt (tdesObjOf key) b = .ok z
    unfold tdesEncrypt
    have e : tdesRun (tdesObjOf key) b (tdesObjOf key).k1 (tdesObjOf key).m1 = .ok x := hx
    rw [e, Out.ok_bind]
    have e : tdesRun (tdesObjOf key) x (tdesObjOf key).k2 (tdesObjOf key).m2 = .ok y := hy
    rw [e, Out.ok_bind]
    exact hz
  · intro h8
    exact hb (by simp only [tdes, h8])

/-- The numbers of the tables. -/
theorem sym_cases {sym : UInt8} {n : Nat} (h : keyLen sym = some n) :
    (sym = 1 ∧ n = 16) ∨ (sym = 2 ∧ n = 24) ∨ (sym = 3 ∧ n = 16) ∨ (sym = 4 ∧ n = 16) ∨ (sym = 7 ∧ n = 16) ∨
    (sym = 8 ∧ n = 24) ∨ (sym = 9 ∧ n = 32) ∨ (sym = 10 ∧ n = 32) ∨ (sym = 11 ∧ n = 16) ∨ (sym = 12 ∧ n = 24) ∨
    (sym = 13 ∧ n = 32) := by
  unfold keyLen at h
  split_ifs at h with h1 h2 h3 <;> obtain rfl := Option.some.inj h
  · rcases h1 with rfl | rfl | rfl | rfl | rfl <;> simp
  · rcases h2 with rfl | rfl | rfl <;> simp
  · rcases h3 with rfl | rfl | rfl <;> simp

/-- For every algorithm number with a key length: there is a class, its block size is the tabled one (8 or 16 octets),
and every key of the tabled length makes an object that encrypts. -/
theorem C51_sym_tables (sym : UInt8) (n : Nat) (h : keyLen sym = some n) :
    ∃ c, symClass sym = some c ∧ (∃ bs, blockLen sym = some bs ∧ c.2.blocksize = 8 * bs) ∧
      ∀ key : Bytes, key.length = n → c.2.EncryptsWith key := by
  rcases sym_cases h with h | h | h | h | h | h | h | h | h | h | h <;> obtain ⟨rfl, rfl⟩ := h
  · exact ⟨_, rfl, ⟨8, rfl, rfl⟩, fun key hk => (C39_idea key hk).encrypts⟩
  · exact ⟨_, rfl, ⟨8, rfl, rfl⟩, fun key hk => tdes_encrypts key (by omega)⟩
  · exact ⟨_, rfl, ⟨8, rfl, rfl⟩, fun key hk => (C39_cast128 key).encrypts⟩
  · exact ⟨_, rfl, ⟨8, rfl, rfl⟩, fun key hk => (C39_blowfish key (by omega) (by omega)).encrypts⟩
  · exact ⟨_, rfl, ⟨16, rfl, rfl⟩, fun key hk => (C39_aes key (by omega)).encrypts⟩
  · exact ⟨_, rfl, ⟨16, rfl, rfl⟩, fun key hk => (C39_aes key (by omega)).encrypts⟩
  · exact ⟨_, rfl, ⟨16, rfl, rfl⟩, fun key hk => (C39_aes key (by omega)).encrypts⟩
  · exact ⟨_, rfl, ⟨16, rfl, rfl⟩, fun key hk => (C39_twofish key (by omega)).encrypts⟩
  · exact ⟨_, rfl, ⟨16, rfl, rfl⟩, fun key hk => (C39_camellia key (by omega)).encrypts⟩
  · exact ⟨_, rfl, ⟨16, rfl, rfl⟩, fun key hk => (C39_camellia key (by omega)).encrypts⟩
  · exact ⟨_, rfl, ⟨16, rfl, rfl⟩, fun key hk => (C39_camellia key (by omega)).encrypts⟩

/-- The two tables and `Sym::setup` know the same numbers; for the others `Sym::setup` throws. -/
theorem C51_sym_numbers (sym : UInt8) :
    (keyLen sym).isSome = (symClass sym).isSome ∧ (blockLen sym).isSome = (symClass sym).isSome ∧
      (keyLen sym = none → ∀ key, builtinSetup sym key = .throw) := by
  have h1 : ∀ s : UInt8, (keyLen s).isSome = (symClass s).isSome ∧ (blockLen s).isSome = (symClass s).isSome := by
    have h256 : ∀ i : Fin 256, (keyLen (UInt8.ofNat i)).isSome = (symClass (UInt8.ofNat i)).isSome ∧
        (blockLen (UInt8.ofNat i)).isSome = (symClass (UInt8.ofNat i)).isSome := by decide +kernel
    intro s
    have := h256 ⟨s.toNat, s.toNat_lt⟩
    simpa using this
  refine ⟨(h1 sym).1, (h1 sym).2, fun h key => ?_⟩
  have : symClass sym = none := by
    have := (h1 sym).1
    rw [h] at this
    exact Option.isNone_iff_eq_none.mp (by simpa using this.symm)
  rw [builtinSetup, this]

/-- The digest an object returns is the decoded hexadecimal form of some state. -/
theorem use_hex {S : Type} {alg : HashAlg S} {m d : Bytes} (h : alg.use m = .ok d) :
    ∃ s, unhexlify (alg.hex s) = .ok d := by
  simp only [HashAlg.use, HashAlg.digest, HashAlg.hexdigest] at h
  obtain ⟨o, -, h⟩ := Out.bind_eq_ok.mp h
  obtain ⟨⟨o', d'⟩, h1, h⟩ := Out.bind_eq_ok.mp h
  obtain rfl := Out.ok.inj h
  obtain ⟨⟨o'', x⟩, h2, h1⟩ := Out.bind_eq_ok.mp h1
  obtain ⟨y, h3, h1⟩ := Out.bind_eq_ok.mp h1
  obtain ⟨last, -, h2⟩ := Out.bind_eq_ok.mp h2
  obtain ⟨tmp, -, h2⟩ := Out.bind_eq_ok.mp h2
  obtain ⟨rfl, rfl⟩ := Prod.mk.inj (Out.ok.inj h2)
  obtain ⟨rfl, rfl⟩ := Prod.mk.inj (Out.ok.inj h1)
  exact ⟨tmp, h3⟩

/-- Whatever the data, a digest has the tabled length. -/
theorem builtinHash_length (alg : UInt8) (n : Nat) (hn : hashLen alg = some n) (m d : Bytes)
    (h : builtinHash alg m = .ok d) : d.length = n := by
  unfold hashLen at hn
  unfold builtinHash at h
  split_ifs at hn h <;> obtain rfl := Option.some.inj hn <;> obtain ⟨s, hs⟩ := use_hex h
  · rw [md5_implements.hex] at hs; obtain rfl := Out.ok.inj hs; simp [Std.encLE]
  · rw [sha1_implements.hex] at hs; obtain rfl := Out.ok.inj hs; simp [Std.out5, Std.encBE]
  · rw [ripemd160_implements.hex] at hs; obtain rfl := Out.ok.inj hs; simp [Std.out5, Std.encLE]
  · rw [sha256_implements.hex] at hs; obtain rfl := Out.ok.inj hs; simp [Std.out8, Std.encBE]
  · rw [sha384_implements.hex] at hs; obtain rfl := Out.ok.inj hs; simp [Std.out8, Std.encBE]
  · rw [sha512_implements.hex] at hs; obtain rfl := Out.ok.inj hs; simp [Std.out8, Std.encBE]
  · rw [sha224_implements.hex] at hs; obtain rfl := Out.ok.inj hs; simp [Std.out8, Std.encBE]

/-- `Hash::LENGTH` is right for all data on which the hash returns, and the hash returns for all data below 4 GiB. -/
theorem C51_hash_table (alg : UInt8) (n : Nat) (hn : hashLen alg = some n) (m : Bytes) :
    (∀ d, builtinHash alg m = .ok d → d.length = n) ∧ (m.length < 2 ^ 32 → ∃ d, builtinHash alg m = .ok d) := by
  refine ⟨fun d => builtinHash_length alg n hn m d, fun hm => ?_⟩
  have h1 : (Std.hashOf alg).isSome := by rw [← (C49_digest_size alg).1, hn]; rfl
  obtain ⟨H, hH⟩ := Option.isSome_iff_exists.mp h1
  exact ⟨_, C49_standard alg H hH m hm⟩

/-- The library's own primitives meet what the theorems on the packet layer ask of the primitives. -/
theorem C51_primitives_ok : builtinCrypto.Ok where
  hash_len := by
    intro a n d hn
    simp only [builtinCrypto]
    split
    · exact builtinHash_length a n hn d _ ‹_›
    · simp [hn]
  cipher_ok := by
    intro s n k hn hk
    obtain ⟨c, hc, ⟨bs, hbs, h8⟩, henc⟩ := C51_sym_tables s n hn
    obtain ⟨o, ho, h1, -⟩ := henc k hk
    obtain ⟨b, hb, hb2⟩ := keyLen_blockLen hn
    have hbb : b = bs := Option.some.inj (hb.symm.trans hbs)
    have hdiv : c.2.blocksize / 8 = bs := by omega
    refine ⟨c.2.asCipher o, ?_, ⟨?_, ?_⟩, ?_⟩
    · simp only [builtinCrypto, builtinSetup, hc, SymCipher.build, ho, Out.ok_bind]
      rfl
    · simp only [SymCipher.asCipher]; omega
    · intro x hx
      simp only [SymCipher.asCipher] at hx ⊢
      obtain ⟨e, he, hl⟩ := h1 x (by omega)
      rw [he]
      simp only
      omega
    · simp only [SymCipher.asCipher, hdiv, hbs]

/-- Encryption with a passphrase and the library's own ciphers and hashes: whatever the algorithm number (Triple-DES
and IDEA included, whose `decrypt` members are wrong: the CFB modes only call `encrypt`), the passphrase and the
data, decryption gives the data back, for the lengths of `EncArgs.Fits`. -/
theorem C51_symmetric_roundtrip_partial {E : Type} {z : Zip} (rawE : E → Bytes) (readE : Bytes → Out E) (a : EncArgs) (hz : a.Undoes z)
    (n bs D : Nat) (h : a.Usable n bs) (hf : a.Fits z) (salt rand pass : Bytes) (hs : salt.length = 8)
    (hr : rand.length = bs) (keyHash : UInt8) (hD : hashLen keyHash = some D) (depth : Nat) (hd : 2 ≤ depth) :
    ∃ m r, encryptSym builtinCrypto z rawE a salt rand pass keyHash = .ok m ∧
      decryptSym builtinCrypto z readE depth m pass = .ok r ∧
      r.packets = [⟨.new, false, .literal ⟨0x62, a.filename, 0, a.data⟩⟩] := by
  obtain ⟨m, r, h1, -, h2, h3, -⟩ :=
    C27_roundtrip_partial C51_primitives_ok rawE readE a hz n bs D h hf salt rand pass hs hr keyHash hD depth hd
  exact ⟨m, r, h1, h2, h3⟩

/-- A key, an algorithm and a passphrase: the S2K key derivation with the library's SHA-1 and AES-128. -/
example : ∃ c, builtinCrypto.cipher 7 (List.replicate 16 1) = .ok c ∧ c.bs = 16 := by
  obtain ⟨c, h1, -, h2⟩ := C51_primitives_ok.cipher_ok 7 16 (List.replicate 16 1) rfl (by decide)
  exact ⟨c, h1, (Option.some.inj h2).symm⟩

end OpenPGP
