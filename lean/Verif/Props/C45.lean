import Verif.Model.Keygen
import Verif.Props.C43Cert
import Verif.Lemmas.Signed

/-!
# C45: generated keys are well-formed and usable
-/
namespace OpenPGP
open Rfc
variable {E : Type}

/-- The values are a key pair of the algorithm. -/
def KeyPair (pka : UInt8) (pub pri : List Nat) : Prop :=
  ((pka = 1 ∨ pka = 2 ∨ pka = 3) ∧ RsaKey pub pri) ∨ (pka = 16 ∧ ElgamalKey pub pri) ∨ (pka = 17 ∧ DsaKey pub pri)

/-- Algorithms and sizes for which keys are generated: RSA and ElGamal of any size, DSA if half the requested size is a multiple of 1024. -/
def CanGenerate (pka : UInt8) (bits : Nat) : Prop := pka = 1 ∨ pka = 2 ∨ pka = 3 ∨ pka = 16 ∨ (pka = 17 ∧ bits / 2 % 1024 = 0)

/-- The random values used for a key of this algorithm do not mislead: what `nextprime` returns and the primality test accepts are odd
primes (an RSA modulus came out odd), the auxiliary number of DSA and ElGamal is a prime below the starting value, and the public values
have at most the 65528 bits an MPI can carry. -/
structure KeyRand.Good (r : KeyRand) (pka : UInt8) (bits : Nat) : Prop where
  nextprime : ∀ a, (r.np a).Prime
  test : ∀ p, r.test p = true → p.Prime ∧ p ≠ 2
  aux : pka = 16 ∨ pka = 17 → r.q.Prime ∧ r.q < r.start
  values : ∀ pub pri, generateKeypair r pka (generateParams pka (bits / 2)) = .ok (some (pub, pri)) →
    (∀ n ∈ pub, bitsize n ≤ 65528) ∧ (∀ n, pub[0]? = some n → n % 2 = 1)

theorem generateParams_nil {pka : UInt8} {bits : Nat} : generateParams pka (bits / 2) = [] ↔ ¬ CanGenerate pka bits := by
  rw [generateParams, CanGenerate]
  split
  · rename_i h
    simp only [List.cons_ne_nil, false_iff, not_not]
    tauto
  · rename_i h
    split
    · rename_i h17
      split <;> rename_i hb <;> simp [h17, hb]
    · rename_i h17
      simp only [true_iff]
      tauto

theorem bitsize_mono {a b : Nat} (h : a ≤ b) : bitsize a ≤ bitsize b := by
  rw [bitsize, bitsize]
  by_cases ha : a = 0
  · subst ha; simp
  · have := Nat.log2_lt (n := a) (k := b.log2 + 1) ha
    have h2 : b < 2 ^ (b.log2 + 1) := Nat.lt_log2_self
    have := this.mpr (by omega)
    omega

/-- What generation of a key pair gives. -/
theorem keypair_ok {r : KeyRand} {pka : UInt8} {bits : Nat} (hr : r.Good pka bits) {o : Option (List Nat × List Nat)}
    (h : generateKeypair r pka (generateParams pka (bits / 2)) = .ok o) :
    (o = none ↔ ¬ CanGenerate pka bits) ∧ ∀ pub pri, o = some (pub, pri) → KeyPair pka pub pri ∧ (∀ n ∈ pub, bitsize n ≤ 65528) ∧
      (∀ n ∈ pri, bitsize n ≤ 65528) ∧ KeyPkt.mpiCount pka = some pub.length := by
  have hv := hr.values
  by_cases hnil : generateParams pka (bits / 2) = []
  · rw [generateKeypair, if_pos hnil] at h
    obtain rfl := Out.ok.inj h
    exact ⟨⟨fun _ => generateParams_nil.mp hnil, fun _ => rfl⟩, by simp⟩
  have hc : CanGenerate pka bits := by
    by_contra hc
    exact hnil (generateParams_nil.mpr hc)
  have fin : ∀ {pub pri}, o = some (pub, pri) → (KeyPair pka pub pri ∧ (∀ n ∈ pri, ∃ b ∈ pub, n ≤ b) ∧ KeyPkt.mpiCount pka = some pub.length) →
      (o = none ↔ ¬ CanGenerate pka bits) ∧ ∀ pub pri, o = some (pub, pri) → KeyPair pka pub pri ∧ (∀ n ∈ pub, bitsize n ≤ 65528) ∧
      (∀ n ∈ pri, bitsize n ≤ 65528) ∧ KeyPkt.mpiCount pka = some pub.length := by
    rintro pub pri rfl ⟨h1, h2, h3⟩
    refine ⟨by simp [hc], fun pub' pri' he => ?_⟩
    obtain ⟨rfl, rfl⟩ : pub = pub' ∧ pri = pri' := by simpa using he
    have hb := (hv _ _ h).1
    refine ⟨h1, hb, fun n hn => ?_, h3⟩
    obtain ⟨b, hb1, hb2⟩ := h2 n hn
    exact (bitsize_mono hb2).trans (hb b hb1)
  have h0 := h
  rw [generateKeypair, if_neg hnil] at h
  split at h
  · rename_i hp
    obtain ⟨v, hvs, h⟩ := Out.bind_eq_ok.mp h
    obtain ⟨n, e, d, p, q, u, rfl, hpp, hqp, hlt, hn, he, hed, hd, hu, huq⟩ := C23_keygen hr.nextprime hvs
    simp [vecAt] at h
    subst h
    have hodd := (hv _ _ h0).2 n rfl
    have hp2 : p ≠ 2 := by
      rintro rfl
      rw [hn, Nat.mul_mod] at hodd
      simp at hodd
    have h2 := hpp.two_le
    have h3 := hqp.two_le
    refine fin rfl ⟨Or.inl ⟨hp, p, q, e, d, [p, q, u], hpp, hqp, by omega, hp2, by omega, by rw [hn], rfl, ?_⟩, ?_, ?_⟩
    · rw [hed, Nat.mod_eq_of_lt]
      have h4 : 2 ≤ p - 1 := by omega
      have h5 : 2 ≤ q - 1 := by omega
      calc 1 < 2 * 2 := by decide
        _ ≤ (p - 1) * (q - 1) := Nat.mul_le_mul h4 h5
    · have hpn : p ≤ n := by rw [hn]; exact Nat.le_mul_of_pos_right _ (by omega)
      have hqn : q ≤ n := by rw [hn]; exact Nat.le_mul_of_pos_left _ (by omega)
      have hdn : d ≤ n := by
        have : (p - 1) * (q - 1) ≤ p * q := Nat.mul_le_mul (by omega) (by omega)
        omega
      intro x hx
      refine ⟨n, by simp, ?_⟩
      simp only [List.mem_cons, List.not_mem_nil, or_false] at hx
      rcases hx with rfl | rfl | rfl | rfl <;> omega
    · rcases hp with rfl | rfl | rfl <;> rfl
  split at h
  · rename_i hp hp16
    obtain ⟨v, hvs, h⟩ := Out.bind_eq_ok.mp h
    obtain ⟨hq, hs⟩ := hr.aux (Or.inl hp16)
    obtain ⟨p, g, y, x, rfl, hk, hx0, hxp, -⟩ := C24_keygen hq.two_le hs hr.test hvs
    simp [vecAt] at h
    subst h
    refine fin rfl ⟨Or.inr (Or.inl ⟨hp16, hk⟩), ?_, by subst hp16; rfl⟩
    intro n hn
    obtain rfl : n = x := by simpa using hn
    exact ⟨p, by simp, by omega⟩
  split at h
  · rename_i hp hp16 hp17
    obtain ⟨v, hvs, h⟩ := Out.bind_eq_ok.mp h
    obtain ⟨⟨pub, pri⟩, hks, h⟩ := Out.bind_eq_ok.mp h
    obtain ⟨hq, hs⟩ := hr.aux (Or.inr hp17)
    obtain ⟨p, g, rfl, hpp, hp2, -, hg, -, -⟩ := C25_new_public hq hs hr.test hvs
    obtain ⟨hk, x, rfl, hx0, hxq⟩ := C25_keygen hpp hp2 hq hg hks
    obtain rfl := Out.ok.inj h
    have hpub : pub.length = 4 ∧ r.q ∈ pub := by
      obtain ⟨p', q', g', y', x', -, -, -, -, rfl, -, -⟩ := hk
      refine ⟨rfl, ?_⟩
      simp only [dsaKeygen, vecAt, List.getElem?_cons_zero, List.getElem?_cons_succ, Out.ok_bind] at hks
      obtain ⟨x'', -, hks⟩ := Out.bind_eq_ok.mp hks
      have key : ∀ t a b, dsaKeyTrials x'' [p, r.q, g] t = .ok (a, b) → r.q ∈ a := by
        intro t
        induction t with
        | nil => intro a b h; simp [dsaKeyTrials] at h
        | cons c t ih =>
          intro a b h
          rw [dsaKeyTrials] at h
          obtain ⟨_, _, h⟩ := Out.bind_eq_ok.mp h
          obtain ⟨_, _, h⟩ := Out.bind_eq_ok.mp h
          obtain ⟨_, _, h⟩ := Out.bind_eq_ok.mp h
          obtain ⟨_, _, h⟩ := Out.bind_eq_ok.mp h
          obtain ⟨_, _, h⟩ := Out.bind_eq_ok.mp h
          split at h
          · cases h; simp
          · exact ih _ _ h
      exact key _ _ _ hks
    refine fin rfl ⟨Or.inr (Or.inr ⟨hp17, hk⟩), ?_, by subst hp17; rw [hpub.1]; rfl⟩
    intro n hn
    obtain rfl : n = x := by simpa using hn
    exact ⟨r.q, hpub.2, by omega⟩
  · exfalso
    rw [CanGenerate] at hc
    tauto

/-- What protecting secret octets gives: a packet whose octets decrypt to them and their digests again. -/
theorem protectSecret_ok {cr : Crypto} (hcr : cr.Ok) {r : KeyRand} {twice : Bool} {key : KeyPkt} {sym hash : UInt8} {pass secret : Bytes} {t : Tag5}
    (h : protectSecret cr r twice key sym hash pass secret = .ok t) :
    t.key = key ∧ t.s2kCon = 254 ∧ t.s2k ≠ none ∧ t.protectionWf ∧
      Tag5.plainSecret cr t pass = .ok (secret ++ cr.hash 2 secret ++ if twice then cr.hash 2 (secret ++ cr.hash 2 secret) else []) := by
  rw [protectSecret] at h
  obtain ⟨salt, hsalt, h⟩ := Out.bind_eq_ok.mp h
  obtain ⟨n, hn, h⟩ := Out.bind_eq_ok.mp h
  obtain ⟨k, hk, h⟩ := Out.bind_eq_ok.mp h
  rw [hashUse, if_pos (by decide), Out.ok_bind] at h
  obtain ⟨bs, hbs, h⟩ := Out.bind_eq_ok.mp h
  obtain ⟨iv, hiv, h⟩ := Out.bind_eq_ok.mp h
  obtain ⟨again, hag, h⟩ := Out.bind_eq_ok.mp h
  obtain ⟨c, hc, h⟩ := Out.bind_eq_ok.mp h
  obtain rfl := Out.ok.inj h
  have hagain : again = if twice then cr.hash 2 (secret ++ cr.hash 2 secret) else [] := by
    cases twice with
    | false => exact (Out.ok.inj hag).symm
    | true =>
      rw [if_pos rfl, hashUse, if_pos (by decide)] at hag
      rw [if_pos rfl, Out.ok.inj hag]
  rw [← hagain]
  refine ⟨rfl, rfl, by simp, ?_⟩
  have hkl : keyLen sym = some n := by
    cases hkn : keyLen sym with
    | none => rw [hkn] at hn; simp [mapAt] at hn
    | some m => rw [hkn] at hn; exact congrArg some (Out.ok.inj hn)
  have hbl : blockLen sym = some bs := by
    cases hbn : blockLen sym with
    | none => rw [hbn] at hbs; simp [mapAt] at hbs
    | some m => rw [hbn] at hbs; exact congrArg some (Out.ok.inj hbs)
  have hpos : 0 < n := by
    have hall : ∀ s, ∀ m, keyLen s = some m → 0 < m := by
      intro s m hm
      rw [keyLen] at hm
      split at hm <;> [skip; split at hm <;> [skip; split at hm]] <;> simp_all <;> omega
    exact hall _ _ hkl
  have hwf : (S2K.iterated hash salt 96).wf := by
    rw [randBytes] at hsalt
    split at hsalt
    · exact absurd hsalt (by simp)
    · obtain rfl := Out.ok.inj hsalt
      change (r.salt.take 8).length = 8
      rw [List.length_take]; omega
  have hkeylen : k.length = n := by
    cases hD : hashLen hash with
    | none =>
      rw [C20_unknown_hash cr (S2K.iterated hash salt 96) hD pass n hpos] at hk
      exact absurd hk (by simp)
    | some D =>
      have hp := hashLen_pos hD
      obtain ⟨k', h1, h2, -⟩ := C20_run cr hcr _ hwf D hD pass n n (Nat.le_mul_of_pos_right n hp)
      rw [hk] at h1
      obtain rfl := Out.ok.inj h1
      exact h2
  obtain ⟨ci, hci, hciok, hcibs⟩ := hcr.cipher_ok sym n k hkl hkeylen
  have hs0 : sym ≠ 0 := by
    rintro rfl
    simp [keyLen] at hkl
  have hset : symSetup cr sym k = .ok ci := by rw [symSetup, if_pos (by rw [hbl]; rfl), hci]
  have hivl : iv.length = ci.bs := by
    rw [hbl] at hcibs
    rw [randBytes] at hiv
    split at hiv
    · exact absurd hiv (by simp)
    · obtain rfl := Out.ok.inj hiv
      have := Option.some.inj hcibs
      rw [List.length_take]; omega
  refine ⟨Or.inr (Or.inl ⟨Or.inl rfl, ⟨_, rfl, hwf⟩, ?_⟩), ?_⟩
  · rw [hbl] at hcibs
    rw [hivl, ← Option.some.inj hcibs]
    exact hbl
  rw [useNormalCfbEncrypt, if_neg hs0, hset, Out.ok_bind] at hc
  have hcalc : Tag5.calculateKey cr ⟨key, 254, sym, some (.iterated hash salt 96), iv, c⟩ pass = .ok k := by
    change (do let n ← mapAt (keyLen sym); (S2K.iterated hash salt 96).run cr pass n) = _
    rw [hn, Out.ok_bind, hk]
  rw [Tag5.plainSecret, if_pos (by change (254 : UInt8) ≠ 0; decide), hcalc, Out.ok_bind]
  change useNormalCfbDecrypt cr sym c k iv = _
  rw [useNormalCfbDecrypt, if_neg hs0, hset, Out.ok_bind]
  obtain ⟨ct, h1, -, h2⟩ := C17_roundtrip ci hciok (secret ++ cr.hash 2 secret ++ again) iv hivl
  rw [hc] at h1
  obtain rfl := Out.ok.inj h1
  exact h2

/-- The primary key packet and, without passphrase, a subkey packet: the passphrase opens it. -/
theorem newSecretPacket_ok {cr : Crypto} (hcr : cr.Ok) {r : KeyRand} {twice : Bool} {pka sym hash : UInt8} {now : Nat} {pass : Bytes}
    {pub pri : List Nat} {t : Tag5} (h : newSecretPacket cr r twice pka sym hash now pass pub pri = .ok t)
    (hpri : ∀ n ∈ pri, bitsize n ≤ 65528) :
    t.key = ⟨4, now, pka, pub, 0⟩ ∧ (Tag5.hasS2K t.s2kCon = true → t.s2k ≠ none) ∧ (t.s2kCon = 0 ↔ pass = []) ∧ t.protectionWf ∧
      (twice = false ∨ pass = [] → t.decryptSecretKeys cr pass = .ok pri) := by
  rw [newSecretPacket] at h
  split at h
  · rename_i hp
    obtain ⟨h1, h2, h3, hwf, h4⟩ := protectSecret_ok hcr h
    refine ⟨h1, fun _ => h3, by simp [h2, hp], hwf, fun htw => ?_⟩
    have htw : twice = false := htw.resolve_right hp
    subst htw
    simp only [Bool.false_eq_true, if_false, List.append_nil] at h4
    have hl : (cr.hash 2 (writeMPIs pri)).length = t.hashSize := by
      rw [Tag5.hashSize, if_pos h2]
      exact hcr.hash_len 2 20 _ rfl
    rw [Tag5.decryptSecretKeys, h4, Out.ok_bind, Tag5.checkAndParse_eq cr t _ _ hl, Tag5.decryptChecksum, if_pos h2, hashUse, if_pos (by decide), Out.ok_bind,
      if_neg (by simp), readAllMPIs_write pri hpri]
  · rename_i hp
    have hp : pass = [] := by simpa using hp
    obtain rfl := Out.ok.inj h
    refine ⟨rfl, by simp [Tag5.hasS2K], by simp [hp], Or.inl ⟨rfl, rfl, rfl, rfl⟩, fun _ => ?_⟩
    rw [Tag5.decryptSecretKeys, Tag5.plainSecret, if_neg (by simp), Out.ok_bind, Tag5.checkAndParse_eq cr _ _ _ (by rw [be_length]; rfl),
      Tag5.decryptChecksum, if_neg (by change ¬ (0 : UInt8) = 254; decide), Out.ok_bind, if_neg (by simp), readAllMPIs_write pri hpri]

/-- Signing in general: with values that are a key pair a signature comes out. -/
theorem digestFinish_ok {cr : Crypto} (hcr : cr.Ok) {t : Tag5} {pass : Bytes} {pri draws : List Nat} (hopen : t.decryptSecretKeys cr pass = .ok pri)
    (hsz : ∀ n ∈ t.key.mpi, bitsize n ≤ 65528) {sig : Tag2 E} {input : Out Bytes} {r : Option (Tag2 E)}
    (hm : (digestOf cr sig input >>= fun d => finishSig cr draws t pass sig d) = .ok r) :
    ∃ i n, input = .ok i ∧ hashLen sig.hash = some n ∧ (t.key.pka = 3 → r = none) ∧ (SigningPair t.key.pka t.key.mpi pri → ∃ vals,
      r = some { sig with left16 := (cr.hash sig.hash i).take 2, mpi := vals } ∧
        SignatureHolds sig.hash t.key.pka (cr.hash sig.hash i) t.key.mpi vals ∧ vals.length = (if t.key.pka = 17 then 2 else 1) ∧
        ∀ v ∈ vals, ∃ n ∈ t.key.mpi, v.log2 ≤ n.log2) := by
  obtain ⟨d, hd, hm⟩ := Out.bind_eq_ok.mp hm
  obtain ⟨i, hi, hd⟩ := Out.bind_eq_ok.mp hd
  rw [hashUse] at hd
  split at hd
  · rename_i hsome
    obtain ⟨n, hn⟩ := Option.isSome_iff_exists.mp hsome
    obtain rfl := Out.ok.inj hd
    rw [finishSig] at hm
    obtain ⟨l, hl, hm⟩ := Out.bind_eq_ok.mp hm
    rw [substr, if_neg (by omega)] at hl
    obtain rfl := Out.ok.inj hl
    rw [hopen, Out.ok_bind] at hm
    obtain ⟨vals, hv, hm⟩ := Out.bind_eq_ok.mp hm
    refine ⟨i, n, hi, hn, ?_, ?_⟩
    · intro h3
      rw [signPka, h3, if_neg (by decide), if_neg (by decide)] at hv
      obtain rfl := Out.ok.inj hv
      rw [if_pos rfl] at hm
      exact (Out.ok.inj hm).symm
    · intro hp
      have hsz' : ∀ n, t.key.mpi[0]? = some n → n.log2 < 2 ^ 32 := fun n hn => by
        have := hsz n (List.mem_of_getElem? hn)
        rw [bitsize] at this
        omega
      obtain ⟨hs, hne⟩ := signPka_holds (by rw [hn, hcr.hash_len _ _ _ hn]) hsz' hp hv
      rw [if_neg hne] at hm
      exact ⟨vals, (Out.ok.inj hm).symm, hs, signPka_size hp hv⟩
  · exact absurd hd (by simp)

/-- The signature packet is a version 4 signature of the given type, hash algorithm and time, names the key, and its values are a signature
by the key over the prescribed content. -/
structure MadeBy (cr : Crypto) (rawE : E → Bytes) (key : KeyPkt) (now : Nat) (type hash : UInt8) (c : Signed E) (s : Tag2 E) : Prop where
  version : s.version = 4
  type_eq : s.type = type
  hash_eq : s.hash = hash
  time : s.hashed = [⟨false, .sigTime now⟩]
  pka_eq : s.pka = key.pka
  issuer : ∃ kid, key.keyid cr = .ok kid ∧ s.getKeyid = .ok kid ∧ s.unhashed = [⟨false, .issuer kid⟩]
  sizes : s.mpi.length = (if key.pka = 17 then 2 else 1) ∧ ∀ v ∈ s.mpi, ∃ n ∈ key.mpi, v.log2 ≤ n.log2
  rest : s.time = 0 ∧ s.keyid = []
  good : ∃ i, Prescribed rawE c s i ∧ GoodValues cr key s i ∧ s.left16 = (cr.hash s.hash i).take 2

/-- The text of a user ID: of name, comment in parentheses and address in angle brackets those that are given, separated by spaces. -/
def userText (u : UserConfig) : Bytes :=
  [0x20].intercalate (([u.user].filter (· ≠ [])) ++ ([u.comment].filter (· ≠ [])).map (fun c => ascii "(" ++ c ++ ascii ")") ++
    ([u.email].filter (· ≠ [])).map (fun e => ascii "<" ++ e ++ ascii ">"))

theorem setInfo_eq (u : UserConfig) : setInfo u.user u.comment u.email = userText u := by
  obtain ⟨n, c, e, s⟩ := u
  rw [setInfo, userText]
  by_cases hn : n = [] <;> by_cases hc : c = [] <;> by_cases he : e = [] <;>
    simp [hn, hc, he, List.intercalate]

/-- A packet of the generated key in the library's default header format. -/
def newPkt (b : Body E) : Pkt E := ⟨.new, false, b⟩

theorem signed_ok {cr : Crypto} (hcr : cr.Ok) {rawE : E → Bytes} {pass : Bytes} {primary : Tag5} {keyid : Bytes} {now : Nat} {pri draws : List Nat}
    (hk : primary.key.keyid cr = .ok keyid) (hopen : primary.decryptSecretKeys cr pass = .ok pri)
    (hsz : ∀ n ∈ primary.key.mpi, bitsize n ≤ 65528) (hpair : primary.key.pka = 3 ∨ SigningPair primary.key.pka primary.key.mpi pri)
    {type hash : UInt8} {c : Signed E} (hf : c.fits type) (h2 : type ≠ 2) (hid : ∀ k id, c = .user k id → id.tag = 13 ∨ id.tag = 17)
    {r : Option (Tag2 E)}
    (hm : (digestOf cr (createSig (E := E) 4 type primary.key.pka hash keyid now) (libraryInput rawE c (createSig 4 type primary.key.pka hash keyid now)) >>=
      fun d => finishSig cr draws primary pass (createSig 4 type primary.key.pka hash keyid now) d) = .ok r) :
    (r = none ↔ primary.key.pka = 3) ∧ ∀ s, r = some s → MadeBy cr rawE primary.key now type hash c s := by
  obtain ⟨i, n, hi, hn, h3, hgood⟩ := digestFinish_ok hcr hopen hsz hm
  rcases hpair with h | h
  · simp [h, h3 h]
  · have hne : primary.key.pka ≠ 3 := by
      rcases h with ⟨h, -⟩ | ⟨h, -⟩ <;> rw [h] <;> decide
    obtain ⟨vals, rfl, hv, hsz'⟩ := hgood h
    refine ⟨by simp [hne], fun s hs => ?_⟩
    obtain rfl := Option.some.inj hs
    refine ⟨rfl, rfl, rfl, rfl, rfl, ⟨keyid, hk, getKeyid_v4 _ rfl keyid rfl, rfl⟩, hsz', ⟨rfl, rfl⟩, i, ?_, ⟨⟨n, hn⟩, hv⟩, rfl⟩
    exact prescribed_of_input rawE c _ hf h2 hid i (hi ▸ by cases c <;> rfl) (Or.inr rfl)

/-- User IDs: each is followed by its certification. -/
theorem genUsers_ok {cr : Crypto} (hcr : cr.Ok) {rawE : E → Bytes} {pass : Bytes} {primary : Tag5} {keyid : Bytes} {now : Nat} {pri : List Nat}
    (hk : primary.key.keyid cr = .ok keyid) (hopen : primary.decryptSecretKeys cr pass = .ok pri)
    (hsz : ∀ n ∈ primary.key.mpi, bitsize n ≤ 65528) (hpair : primary.key.pka = 3 ∨ SigningPair primary.key.pka primary.key.mpi pri) :
    ∀ (us : List UserConfig) (nonces : List (List Nat)) (r : Option (List (Pkt E))),
      genUsers cr rawE pass primary.key.pka primary keyid now us nonces = .ok r →
      (r = none ↔ primary.key.pka = 3 ∧ us ≠ []) ∧ ∀ l, r = some l → ∃ sigs : List (Tag2 E),
        l = (us.zip sigs).flatMap (fun p => [newPkt (.userId (userText p.1)), newPkt (.sig p.2)]) ∧
        List.Forall₂ (fun u s => MadeBy cr rawE primary.key now 0x13 u.sig (.user primary.key (.userId (userText u))) s) us sigs
  | [], _, r, h => by
    rw [genUsers] at h
    obtain rfl := Out.ok.inj h
    refine ⟨by simp, fun l hl => ?_⟩
    obtain rfl := Option.some.inj hl
    exact ⟨[], rfl, .nil⟩
  | u :: us, [], r, h => by
    rw [genUsers] at h
    exact absurd h (by simp)
  | u :: us, nonces :: more, r, h => by
    rw [genUsers] at h
    obtain ⟨sig, hsig, h⟩ := Out.bind_eq_ok.mp h
    rw [signCertification, if_neg (by simp [Body.tag]), if_neg (by simp [createSig, isCertification])] at hsig
    obtain ⟨h3, hgood⟩ := signed_ok hcr hk hopen hsz hpair (type := 0x13) (hash := u.sig)
      (c := .user primary.key (.userId (setInfo u.user u.comment u.email))) (by simp [Signed.fits]) (by decide)
      (by rintro k' id' h'; cases h'; exact Or.inl rfl) hsig
    cases sig with
    | none =>
      obtain rfl := Out.ok.inj h
      exact ⟨by simp [h3.mp rfl], by simp⟩
    | some s =>
      obtain ⟨rest, hrest, h⟩ := Out.bind_eq_ok.mp h
      obtain rfl := Out.ok.inj h
      obtain ⟨h4, h5⟩ := genUsers_ok hcr hk hopen hsz hpair us more rest hrest
      have hne : primary.key.pka ≠ 3 := fun h => by simpa using h3.mpr h
      refine ⟨?_, fun l hl => ?_⟩
      · cases rest with
        | none => exact absurd (h4.mp rfl).1 hne
        | some l => simp [hne]
      · cases rest with
        | none => exact absurd hl (by simp)
        | some l' =>
          obtain ⟨sigs, rfl, h6⟩ := h5 l' rfl
          obtain rfl := Option.some.inj hl
          have := hgood s rfl
          rw [setInfo_eq] at this ⊢
          exact ⟨s :: sigs, rfl, .cons this h6⟩

/-- A generated subkey: its values are a key pair of the requested algorithm; without passphrase the secret values are recovered. -/
structure SubkeyMade (cr : Crypto) (rawE : E → Bytes) (pass : Bytes) (key : KeyPkt) (now : Nat) (c : SubkeyConfig) (t : Tag5) (s : Tag2 E)
    (pri : List Nat) : Prop where
  fields : t.key.version = 4 ∧ t.key.time = now ∧ t.key.pka = c.pka
  pair : KeyPair c.pka t.key.mpi pri
  bits : ∀ n ∈ pri, bitsize n ≤ 65528
  sound : t.Sound
  protection : t.protectionWf
  opens : pass = [] → t.decryptSecretKeys cr pass = .ok pri
  protected_ : pass ≠ [] → ∃ sum sum', sum.length = 20 ∧ sum'.length = 20 ∧ t.plainSecret cr pass = .ok (writeMPIs pri ++ sum ++ sum') ∧
    t.decryptSecretKeys cr pass = readAllMPIs (writeMPIs pri ++ sum) ((writeMPIs pri ++ sum).length + 1) 0
  binding : MadeBy cr rawE key now 0x18 c.sig (.binding key t.key) s

theorem genSubkeys_ok {cr : Crypto} (hcr : cr.Ok) {rawE : E → Bytes} {pass : Bytes} {primary : Tag5} {keyid : Bytes} {now : Nat} {pri : List Nat}
    (hnow : now < 2 ^ 32) (hk : primary.key.keyid cr = .ok keyid) (hopen : primary.decryptSecretKeys cr pass = .ok pri)
    (hsz : ∀ n ∈ primary.key.mpi, bitsize n ≤ 65528) (hpair : SigningPair primary.key.pka primary.key.mpi pri) :
    ∀ (cs : List SubkeyConfig) (rs : List (KeyRand × List Nat)) (r : Option (List (Pkt E))),
      (∀ p ∈ cs.zip rs, p.2.1.Good p.1.pka p.1.bits) →
      genSubkeys cr rawE pass primary.key.pka primary keyid now cs rs = .ok r →
      (r = none ↔ ∃ c ∈ cs, ¬ CanGenerate c.pka c.bits) ∧ ∀ l, r = some l → ∃ subs : List (Tag5 × Tag2 E × List Nat),
        l = subs.flatMap (fun p => [newPkt (.secretSubkey p.1), newPkt (.sig p.2.1)]) ∧
        List.Forall₂ (fun c p => SubkeyMade cr rawE pass primary.key now c p.1 p.2.1 p.2.2) cs subs
  | [], _, r, _, h => by
    rw [genSubkeys] at h
    obtain rfl := Out.ok.inj h
    refine ⟨by simp, fun l hl => ?_⟩
    obtain rfl := Option.some.inj hl
    exact ⟨[], rfl, .nil⟩
  | c :: cs, [], r, _, h => by
    rw [genSubkeys] at h
    exact absurd h (by simp)
  | c :: cs, (kr, nonces) :: more, r, hr, h => by
    rw [genSubkeys] at h
    obtain ⟨kp, hkp, h⟩ := Out.bind_eq_ok.mp h
    obtain ⟨hnone, hsome⟩ := keypair_ok (hr (c, kr, nonces) (by simp)) hkp
    dsimp only at hnone
    cases kp with
    | none =>
      obtain rfl := Out.ok.inj h
      exact ⟨by simp [hnone.mp rfl], by simp⟩
    | some v =>
      obtain ⟨pub, spri⟩ := v
      obtain ⟨hkpair, hpub, hprib, hcount⟩ := hsome pub spri rfl
      have hcan : CanGenerate c.pka c.bits := by
        by_contra hc
        simpa using hnone.mpr hc
      obtain ⟨sub, hsub, h⟩ := Out.bind_eq_ok.mp h
      obtain ⟨sig, hsig, h⟩ := Out.bind_eq_ok.mp h
      obtain ⟨h3, hgood⟩ := signed_ok hcr hk hopen hsz (Or.inr hpair) (type := 0x18) (hash := c.sig)
        (c := .binding primary.key sub.key) (Or.inl rfl) (by decide) (by simp) hsig
      have hne : primary.key.pka ≠ 3 := by
        rcases hpair with ⟨h, -⟩ | ⟨h, -⟩ <;> rw [h] <;> decide
      cases sig with
      | none => exact absurd (h3.mp rfl) hne
      | some s =>
        obtain ⟨rest, hrest, h⟩ := Out.bind_eq_ok.mp h
        obtain rfl := Out.ok.inj h
        obtain ⟨h4, h5⟩ := genSubkeys_ok hcr hnow hk hopen hsz hpair cs more rest
          (fun p hp => hr p (by simp only [List.zip_cons_cons, List.mem_cons]; exact Or.inr hp)) hrest
        refine ⟨?_, fun l hl => ?_⟩
        · cases rest with
          | none =>
            obtain ⟨c', hc', hc''⟩ := h4.mp rfl
            simp only [Option.map_none, true_iff]
            exact ⟨c', by simp [hc'], hc''⟩
          | some l =>
            simp only [Option.map_some, reduceCtorEq, false_iff]
            rintro ⟨c', hc', hc''⟩
            rcases List.mem_cons.mp hc' with rfl | hc'
            · exact hc'' hcan
            · simpa using h4.mpr ⟨c', hc', hc''⟩
        · cases rest with
          | none => exact absurd hl (by simp)
          | some l' =>
            obtain ⟨subs, rfl, h6⟩ := h5 l' rfl
            obtain rfl := Option.some.inj hl
            obtain ⟨hkey, hs2k, hcon, hprot, hdec⟩ := newSecretPacket_ok hcr hsub hprib
            refine ⟨(sub, s, spri) :: subs, rfl, .cons ⟨?_, ?_, hprib, ⟨Or.inl ?_, hs2k⟩, hprot, fun hp => hdec (Or.inr hp), ?_, hgood s rfl⟩ h6⟩
            · rw [hkey]; exact ⟨rfl, rfl, rfl⟩
            · rw [hkey]; exact hkpair
            · rw [hkey]; exact ⟨rfl, hcount, hnow, hpub, rfl⟩
            · intro hp
              rw [newSecretPacket, if_pos hp] at hsub
              obtain ⟨-, h1, -, -, h2⟩ := protectSecret_ok hcr hsub
              rw [if_pos rfl] at h2
              have hl : ∀ d, (cr.hash 2 d).length = 20 := fun d => hcr.hash_len 2 20 d rfl
              refine ⟨_, _, hl _, hl _, h2, ?_⟩
              rw [Tag5.decryptSecretKeys, h2, Out.ok_bind, Tag5.checkAndParse_eq cr sub _ _ (by rw [Tag5.hashSize, if_pos h1, hl]),
                Tag5.decryptChecksum, if_pos h1, hashUse, if_pos (by decide), Out.ok_bind, if_neg (by simp)]

theorem flatten_pairs {α : Type} (f g : α → Body E) (l : List α) :
    (l.flatMap fun p => [newPkt (f p), newPkt (g p)]).map (·.body) = (l.map fun p => [f p, g p]).flatten := by
  induction l with
  | nil => rfl
  | cons a l ih =>
    rw [List.flatMap_cons, List.map_append, ih]
    rfl

theorem forall₂_zip {α β : Type} {R : α → β → Prop} : ∀ {l : List α} {m : List β}, List.Forall₂ R l m → ∀ p ∈ l.zip m, R p.1 p.2
  | _, _, .nil, p, hp => by simp at hp
  | _, _, .cons h t, p, hp => by
    rcases List.mem_cons.mp hp with rfl | hp
    · exact h
    · exact forall₂_zip t p hp

theorem forall₂_right {α β : Type} {R : α → β → Prop} : ∀ {l : List α} {m : List β}, List.Forall₂ R l m → ∀ b ∈ m, ∃ a ∈ l, R a b
  | _, _, .nil, p, hp => by simp at hp
  | _, _, .cons h t, p, hp => by
    rcases List.mem_cons.mp hp with rfl | hp
    · exact ⟨_, List.mem_cons_self, h⟩
    · obtain ⟨a, ha, hr⟩ := forall₂_right t p hp
      exact ⟨a, List.mem_cons_of_mem _ ha, hr⟩

/-- What a generated key is: the primary key, the requested user IDs in order, each followed by a certification made by the primary key, and
the requested subkeys in order, each followed by a binding made by the primary key. -/
structure Generated (cr : Crypto) (rawE : E → Bytes) (c : KeyConfig) (now : Nat) (k : KeyObj E) (primary : Tag5) (pri : List Nat) (sigs : List (Tag2 E))
    (subs : List (Tag5 × Tag2 E × List Nat)) : Prop where
  kind : k.kind = .sec
  packets : k.packets = newPkt (.secretKey primary) :: ((c.uids.zip sigs).flatMap (fun p => [newPkt (.userId (userText p.1)), newPkt (.sig p.2)]) ++
    subs.flatMap fun p => [newPkt (.secretSubkey p.1), newPkt (.sig p.2.1)])
  fields : primary.key.version = 4 ∧ primary.key.time = now ∧ primary.key.pka = c.pka
  pair : SigningPair c.pka primary.key.mpi pri
  sound : primary.Sound
  protection : primary.protectionWf
  opens : primary.decryptSecretKeys cr c.pass = .ok pri
  users : List.Forall₂ (fun u s => MadeBy cr rawE primary.key now 0x13 u.sig (.user primary.key (.userId (userText u))) s) c.uids sigs
  subkeys : List.Forall₂ (fun c' p => SubkeyMade cr rawE c.pass primary.key now c' p.1 p.2.1 p.2.2) c.subkeys subs
  named : c.uids ≠ []

theorem KeyConfig.valid_true {c : KeyConfig} (h : c.valid = .ok true) : c.uids ≠ [] ∧ (c.pka = 1 ∨ c.pka = 3 ∨ c.pka = 17) := by
  rw [KeyConfig.valid] at h
  split at h
  · exact absurd h (by simp)
  split at h
  · exact absurd h (by simp)
  split at h
  · exact absurd h (by simp)
  split at h
  · exact absurd h (by simp)
  split at h
  · exact absurd h (by simp)
  rename_i _ hs _ _ hu
  refine ⟨hu, ?_⟩
  have : canSign c.pka = true := by simpa using hs
  simpa [canSign, or_assoc] using this

/-- Everything about a result: it is empty, or the key asked for. -/
theorem generateKey_cases (cr : Crypto) (hcr : cr.Ok) (rawE : E → Bytes) (c : KeyConfig) (now : Nat) (hnow : now < 2 ^ 32) (r : KeyRand)
    (hr : r.Good c.pka c.bits) (nonces : List (List Nat)) (subs : List (KeyRand × List Nat))
    (hsubs : ∀ p ∈ c.subkeys.zip subs, p.2.1.Good p.1.pka p.1.bits) (k : KeyObj E)
    (h : generateKey cr rawE c now r nonces subs = .ok k) :
    (k = noSecretKey ∧ ¬ (c.valid = .ok true ∧ c.pka ≠ 3 ∧ CanGenerate c.pka c.bits ∧ ∀ s ∈ c.subkeys, CanGenerate s.pka s.bits)) ∨
    ((c.valid = .ok true ∧ c.pka ≠ 3 ∧ CanGenerate c.pka c.bits ∧ ∀ s ∈ c.subkeys, CanGenerate s.pka s.bits) ∧
      ∃ primary pri sigs sk, Generated cr rawE c now k primary pri sigs sk) := by
  rw [generateKey] at h
  obtain ⟨good, hgood, h⟩ := Out.bind_eq_ok.mp h
  cases good with
  | false =>
    obtain rfl := Out.ok.inj h
    exact Or.inl ⟨rfl, by simp [hgood]⟩
  | true =>
    obtain ⟨hun, hsig⟩ := KeyConfig.valid_true hgood
    rw [if_neg (by simp)] at h
    obtain ⟨kp, hkp, h⟩ := Out.bind_eq_ok.mp h
    obtain ⟨hnone, hsome⟩ := keypair_ok hr hkp
    cases kp with
    | none =>
      obtain rfl := Out.ok.inj h
      exact Or.inl ⟨rfl, fun hc => hnone.mp rfl hc.2.2.1⟩
    | some v =>
      obtain ⟨pub, pri⟩ := v
      obtain ⟨hkpair, hpub, hprib, hcount⟩ := hsome pub pri rfl
      have hcan : CanGenerate c.pka c.bits := by
        by_contra hc
        simpa using hnone.mpr hc
      obtain ⟨primary, hprim, h⟩ := Out.bind_eq_ok.mp h
      obtain ⟨keyid, hkeyid, h⟩ := Out.bind_eq_ok.mp h
      obtain ⟨users, husers, h⟩ := Out.bind_eq_ok.mp h
      obtain ⟨hkey, hs2k, hcon, hprot, hdec⟩ := newSecretPacket_ok hcr hprim hprib
      have hopen := hdec (Or.inl rfl)
      have hpk : primary.key.pka = c.pka := by rw [hkey]
      have hsz : ∀ n ∈ primary.key.mpi, bitsize n ≤ 65528 := by rw [hkey]; exact hpub
      have hpair : c.pka = 3 ∨ SigningPair c.pka primary.key.mpi pri := by
        rw [hkey]
        rcases hsig with h1 | h1 | h1
        · rw [h1] at hkpair ⊢
          rcases hkpair with ⟨-, h2⟩ | ⟨h2, -⟩ | ⟨h2, -⟩
          · exact Or.inr (Or.inl ⟨rfl, h2⟩)
          · exact absurd h2 (by decide)
          · exact absurd h2 (by decide)
        · exact Or.inl h1
        · rw [h1] at hkpair ⊢
          rcases hkpair with ⟨h2, -⟩ | ⟨h2, -⟩ | ⟨-, h2⟩
          · exact absurd h2 (by decide)
          · exact absurd h2 (by decide)
          · exact Or.inr (Or.inr ⟨rfl, h2⟩)
      rw [← hpk] at husers
      obtain ⟨hun1, hus⟩ := genUsers_ok hcr hkeyid hopen hsz (by rw [hpk]; exact hpair) _ _ _ husers
      cases users with
      | none =>
        obtain rfl := Out.ok.inj h
        exact Or.inl ⟨rfl, fun hc => hc.2.1 (hpk ▸ (hun1.mp rfl).1)⟩
      | some us =>
        have hne3 : c.pka ≠ 3 := by
          intro h3
          simpa using hun1.mpr ⟨by rw [hpk, h3], hun⟩
        have hpair' := hpair.resolve_left hne3
        obtain ⟨sigs, rfl, hsigs⟩ := hus us rfl
        obtain ⟨sk, hsk, h⟩ := Out.bind_eq_ok.mp h
        rw [← hpk] at hsk
        obtain ⟨hsn, hss⟩ := genSubkeys_ok hcr hnow hkeyid hopen hsz (by rw [hpk]; exact hpair') _ _ _ hsubs hsk
        cases sk with
        | none =>
          obtain rfl := Out.ok.inj h
          obtain ⟨s, hs, hns⟩ := hsn.mp rfl
          exact Or.inl ⟨rfl, fun hc => hns (hc.2.2.2 s hs)⟩
        | some l =>
          obtain ⟨sl, rfl, hsl⟩ := hss l rfl
          obtain rfl := Out.ok.inj h
          refine Or.inr ⟨⟨hgood, hne3, hcan, fun s hs => ?_⟩, primary, pri, sigs, sl, rfl, rfl, ?_, hpair', ⟨Or.inl ?_, hs2k⟩, hprot, hopen, hsigs, hsl, hun⟩
          · by_contra hc
            simpa using hsn.mpr ⟨s, hs, hc⟩
          · rw [hkey]; exact ⟨rfl, rfl, rfl⟩
          · rw [hkey]; exact ⟨rfl, hcount, hnow, hpub, rfl⟩

/-- A generated key is well-formed. -/
theorem Generated.meaningful {cr : Crypto} {rawE : E → Bytes} {c : KeyConfig} {now : Nat} {k : KeyObj E} {primary : Tag5} {pri : List Nat} {sigs : List (Tag2 E)}
    {subs : List (Tag5 × Tag2 E × List Nat)} (h : Generated cr rawE c now k primary pri sigs subs) : k.meaningful = .ok true := by
  rw [KeyObj.meaningful, h.kind]
  refine (C30_meaningful_iff .sec 5 7 rfl _).mpr ?_
  rw [h.packets, List.map_cons, List.map_append, flatten_pairs (fun p : UserConfig × Tag2 E => .userId (userText p.1)) (fun p => .sig p.2),
    flatten_pairs (fun p : Tag5 × Tag2 E × List Nat => .secretSubkey p.1) (fun p => .sig p.2.1)]
  refine ⟨.secretKey primary, [], (c.uids.zip sigs).map fun p => [.userId (userText p.1), .sig p.2],
    subs.map fun p => [.secretSubkey p.1, .sig p.2.1], rfl, rfl, by simp, ?_, ?_, ?_, ?_⟩
  · intro g hg
    obtain ⟨p, hp, rfl⟩ := List.mem_map.mp hg
    have := forall₂_zip h.users p hp
    refine .id _ _ fun s hs => Or.inl ?_
    obtain rfl : s = .sig p.2 := by simpa using hs
    exact ⟨p.2, rfl, by rw [this.type_eq]; decide⟩
  · obtain ⟨u, us, hu⟩ := List.exists_cons_of_ne_nil h.named
    have hu2 := h.users
    rw [hu] at hu2
    obtain ⟨s, ss, -, -, rfl⟩ := List.forall₂_cons_left_iff.mp hu2
    exact ⟨[.userId (userText u), .sig s], by rw [hu]; simp, _, _, rfl⟩
  · intro g hg
    obtain ⟨p, hp, rfl⟩ := List.mem_map.mp hg
    obtain ⟨c', -, hm⟩ := forall₂_right h.subkeys p hp
    have ht := hm.binding.type_eq
    exact ⟨_, _, rfl, rfl, by simp [SigOf], .sig p.2.1, by simp, p.2.1, rfl, ht⟩
  · rintro - k' (hk | ⟨t, ht, rfl⟩)
    · exact absurd hk (by simp)
    · obtain rfl : primary = t := by simpa using ht
      rw [h.fields.1]
      decide

/-- A key that is returned is well-formed, and consists of what was asked for: the primary key, whose secret values the passphrase recovers, the
user IDs with certifications, the subkeys with bindings, all of them good signatures by the primary key. -/
theorem C45_generated (cr : Crypto) (hcr : cr.Ok) (rawE : E → Bytes) (c : KeyConfig) (now : Nat) (hnow : now < 2 ^ 32) (r : KeyRand)
    (hr : r.Good c.pka c.bits) (nonces : List (List Nat)) (subs : List (KeyRand × List Nat))
    (hsubs : ∀ p ∈ c.subkeys.zip subs, p.2.1.Good p.1.pka p.1.bits) (k : KeyObj E)
    (h : generateKey cr rawE c now r nonces subs = .ok k) (hne : k.packets ≠ []) :
    k.kind = .sec ∧ k.meaningful = .ok true ∧ ∃ primary pri sigs sk, Generated cr rawE c now k primary pri sigs sk := by
  rcases generateKey_cases cr hcr rawE c now hnow r hr nonces subs hsubs k h with ⟨rfl, -⟩ | ⟨-, primary, pri, sigs, sk, hg⟩
  · exact absurd rfl hne
  · exact ⟨hg.kind, hg.meaningful, primary, pri, sigs, sk, hg⟩

/-- A key comes out exactly for valid configurations whose primary key is not RSA sign-only and whose algorithms and sizes are ones keys are
generated for. -/
theorem C45_returns_iff (cr : Crypto) (hcr : cr.Ok) (rawE : E → Bytes) (c : KeyConfig) (now : Nat) (hnow : now < 2 ^ 32) (r : KeyRand)
    (hr : r.Good c.pka c.bits) (nonces : List (List Nat)) (subs : List (KeyRand × List Nat))
    (hsubs : ∀ p ∈ c.subkeys.zip subs, p.2.1.Good p.1.pka p.1.bits) (k : KeyObj E)
    (h : generateKey cr rawE c now r nonces subs = .ok k) :
    k.packets ≠ [] ↔ c.valid = .ok true ∧ c.pka ≠ 3 ∧ CanGenerate c.pka c.bits ∧ ∀ s ∈ c.subkeys, CanGenerate s.pka s.bits := by
  rcases generateKey_cases cr hcr rawE c now hnow r hr nonces subs hsubs k h with ⟨rfl, hc⟩ | ⟨hc, primary, pri, sigs, sk, hg⟩
  · exact ⟨fun hn => absurd rfl hn, fun h => absurd h hc⟩
  · exact ⟨fun _ => hc, fun _ => by rw [hg.packets]; simp⟩

/-- Disagreement: the valid configuration of an RSA sign-only primary key never gives a key. -/
theorem C45_sign_only_fails (cr : Crypto) (hcr : cr.Ok) (rawE : E → Bytes) (c : KeyConfig) (now : Nat) (hnow : now < 2 ^ 32) (r : KeyRand)
    (hr : r.Good c.pka c.bits) (nonces : List (List Nat)) (subs : List (KeyRand × List Nat))
    (hsubs : ∀ p ∈ c.subkeys.zip subs, p.2.1.Good p.1.pka p.1.bits) (k : KeyObj E)
    (h : generateKey cr rawE c now r nonces subs = .ok k) (h3 : c.pka = 3) : k.packets = [] := by
  by_contra hne
  exact ((C45_returns_iff cr hcr rawE c now hnow r hr nonces subs hsubs k h).mp hne).2.1 h3

/-- Disagreement: DSA keys of the documented sizes 1024 and 3072 are not generated, as half the size is checked. -/
theorem C45_dsa_size_fails (cr : Crypto) (hcr : cr.Ok) (rawE : E → Bytes) (c : KeyConfig) (now : Nat) (hnow : now < 2 ^ 32) (r : KeyRand)
    (hr : r.Good c.pka c.bits) (nonces : List (List Nat)) (subs : List (KeyRand × List Nat))
    (hsubs : ∀ p ∈ c.subkeys.zip subs, p.2.1.Good p.1.pka p.1.bits) (k : KeyObj E)
    (h : generateKey cr rawE c now r nonces subs = .ok k) (h3 : c.pka = 17) (hb : c.bits = 1024 ∨ c.bits = 3072) : k.packets = [] := by
  by_contra hne
  have := ((C45_returns_iff cr hcr rawE c now hnow r hr nonces subs hsubs k h).mp hne).2.2.1
  rw [CanGenerate, h3] at this
  rcases hb with hb | hb <;> rw [hb] at this <;> simp at this

theorem Generated.soundKey {cr : Crypto} {rawE : E → Bytes} {c : KeyConfig} {now : Nat} {k : KeyObj E} {primary : Tag5} {pri : List Nat} {sigs : List (Tag2 E)}
    {subs : List (Tag5 × Tag2 E × List Nat)} (h : Generated cr rawE c now k primary pri sigs subs) : k.Sound := by
  intro p hp t ht
  rw [h.packets] at hp
  rcases List.mem_cons.mp hp with rfl | hp
  · obtain rfl : primary = t := by simpa [newPkt, Body.secretPart] using ht
    exact h.sound
  rcases List.mem_append.mp hp with hp | hp
  · obtain ⟨q, -, hq⟩ := List.mem_flatMap.mp hp
    simp only [List.mem_cons, List.not_mem_nil, or_false] at hq
    rcases hq with rfl | rfl <;> simp [newPkt, Body.secretPart] at ht
  · obtain ⟨q, hq1, hq⟩ := List.mem_flatMap.mp hp
    simp only [List.mem_cons, List.not_mem_nil, or_false] at hq
    obtain ⟨c', -, hm⟩ := forall₂_right h.subkeys q hq1
    rcases hq with rfl | rfl
    · obtain rfl : q.1 = t := by simpa [newPkt, Body.secretPart] using ht
      exact hm.sound
    · simp [newPkt, Body.secretPart] at ht

theorem KeyPkt.Sound.bits {k : KeyPkt} (h : k.Sound) : ∀ n ∈ k.mpi, bitsize n ≤ 65528 := by
  rcases h with h | h
  · exact h.2.2.2.1
  · exact h.2.2.2

theorem Generated.sizedKey {cr : Crypto} {rawE : E → Bytes} {c : KeyConfig} {now : Nat} {k : KeyObj E} {primary : Tag5} {pri : List Nat} {sigs : List (Tag2 E)}
    {subs : List (Tag5 × Tag2 E × List Nat)} (h : Generated cr rawE c now k primary pri sigs subs) : k.Sized := by
  have hs := h.soundKey
  intro p hp kp hkp n hn
  have hsec : ∃ t, p.body.secretPart = some t ∧ t.key = kp := by
    rw [h.packets] at hp
    rcases List.mem_cons.mp hp with rfl | hp
    · exact ⟨primary, rfl, by simpa [newPkt, Body.keyPart] using hkp⟩
    rcases List.mem_append.mp hp with hp | hp
    · obtain ⟨q, -, hq⟩ := List.mem_flatMap.mp hp
      simp only [List.mem_cons, List.not_mem_nil, or_false] at hq
      rcases hq with rfl | rfl <;> simp [newPkt, Body.keyPart] at hkp
    · obtain ⟨q, hq1, hq⟩ := List.mem_flatMap.mp hp
      simp only [List.mem_cons, List.not_mem_nil, or_false] at hq
      rcases hq with rfl | rfl
      · exact ⟨q.1, rfl, by simpa [newPkt, Body.keyPart] using hkp⟩
      · simp [newPkt, Body.keyPart] at hkp
  obtain ⟨t, ht, rfl⟩ := hsec
  have := (hs p hp t ht).1.bits n hn
  rw [bitsize] at this
  omega

/-- A generated key can sign with its primary key: everything proved about signatures (C36) and revocations (C43) applies to it. -/
theorem C45_can_sign (cr : Crypto) (hcr : cr.Ok) (rawE : E → Bytes) (c : KeyConfig) (now : Nat) (hnow : now < 2 ^ 32) (r : KeyRand)
    (hr : r.Good c.pka c.bits) (nonces : List (List Nat)) (subs : List (KeyRand × List Nat))
    (hsubs : ∀ p ∈ c.subkeys.zip subs, p.2.1.Good p.1.pka p.1.bits) (k : KeyObj E)
    (h : generateKey cr rawE c now r nonces subs = .ok k) (hne : k.packets ≠ []) (version hash : UInt8) :
    ∃ primary pri, CanSign cr ⟨k, c.pass, version, hash⟩ [] primary pri := by
  obtain ⟨h1, h2, primary, pri, sigs, sk, hg⟩ := C45_generated cr hcr rawE c now hnow r hr nonces subs hsubs k h hne
  refine ⟨primary, pri, h1, h2, hg.soundKey, hg.sizedKey, ⟨_, _, hg.packets, rfl⟩, by simp, hg.opens, ?_⟩
  rw [hg.fields.2.2]
  exact hg.pair

/-- The public part of a generated key verifies as certified by itself. -/
theorem C45_self_certified (cr : Crypto) (hcr : cr.Ok) (rawE : E → Bytes) (c : KeyConfig) (now : Nat) (hnow : now < 2 ^ 32) (r : KeyRand)
    (hr : r.Good c.pka c.bits) (nonces : List (List Nat)) (subs : List (KeyRand × List Nat))
    (hsubs : ∀ p ∈ c.subkeys.zip subs, p.2.1.Good p.1.pka p.1.bits) (k : KeyObj E)
    (h : generateKey cr rawE c now r nonces subs = .ok k) (hne : k.packets ≠ []) :
    ∃ pub, k.getPublic = .ok pub ∧ verifyPrimaryKey cr rawE pub pub = .ok .yes := by
  obtain ⟨h1, h2, primary, pri, sigs, sk, hg⟩ := C45_generated cr hcr rawE c now hnow r hr nonces subs hsubs k h hne
  have hpub := getPublic_eq k hg.soundKey
  have hm := meaningful_public hg.soundKey h2
  refine ⟨_, hpub, ?_⟩
  obtain ⟨u, us, hu⟩ := List.exists_cons_of_ne_nil hg.named
  have hu2 := hg.users
  rw [hu] at hu2
  obtain ⟨s, ss, hs, -, rfl⟩ := List.forall₂_cons_left_iff.mp hu2
  have hrr : primary.key.reread = primary.key := by rw [KeyPkt.reread, if_neg (by rw [hg.fields.1]; decide)]
  obtain ⟨kid, hkid, hskid, -⟩ := hs.issuer
  obtain ⟨rest, hrest⟩ : ∃ rest, k.packets.map publicPkt =
      newPkt (.publicKey primary.key) :: newPkt (.userId (userText u)) :: newPkt (.sig s) :: rest := by
    refine ⟨((us.zip ss).flatMap (fun p => [newPkt (.userId (userText p.1)), newPkt (.sig p.2)]) ++
      sk.flatMap fun p => [newPkt (.secretSubkey p.1), newPkt (.sig p.2.1)]).map publicPkt, ?_⟩
    rw [hg.packets, hu, ← hrr]
    rfl
  have hkl := keyid_length cr hcr hkid
  have hcan : canSign primary.key.pka = true := by
    rw [hg.fields.2.2]
    rcases hg.pair with ⟨h, -⟩ | ⟨h, -⟩ <;> rw [h] <;> rfl
  have hsk : signingFields (⟨.pub, k.packets.map publicPkt⟩ : KeyObj E) = .ok (some primary.key) := by
    refine (signingFields_iff hm primary.key).mpr ⟨[], newPkt (.publicKey primary.key), _, hrest, rfl, ?_, by simp⟩
    simpa [canSign, or_assoc] using hcan
  have hown : (⟨.pub, k.packets.map publicPkt⟩ : KeyObj E).keyid cr = .ok kid := by
    rw [KeyObj.keyid, hm, Out.ok_bind, if_neg (by simp), hrest]
    exact hkid
  rw [verifyPrimaryKey, hm, Out.ok_bind, if_neg (by simp), Out.ok_bind, if_neg (by simp), hown, Out.ok_bind,
    if_neg (by rintro rfl; simp at hkl), hsk, Out.ok_bind]
  simp only [hrest, List.map_cons]
  obtain ⟨i, hi, hgv, -⟩ := hs.good
  have hv : verifyCertification cr rawE primary.key primary.key (.userId (userText u)) s = .ok .yes := by
    have hii := input_of_prescribed hs.version (by rintro k' id' h'; cases h'; exact Or.inl rfl) hi
    rw [libraryInput, if_neg (by rw [hs.type_eq]; decide)] at hii
    refine verifyCertification_of_good hcr (fun n hn => ?_) hkid hskid hii hgv
    have := hg.sound.1.bits n (List.mem_of_getElem? hn)
    rw [bitsize] at this
    omega
  unfold certifiedLoop
  rw [if_pos (by simp [newPkt, Body.tag])]
  unfold certifiedLoop
  rw [if_neg (by simp [newPkt, Body.tag]), if_pos (by simp [newPkt, Body.tag])]
  unfold certifiedLoop
  rw [if_neg (by simp [newPkt, Body.tag]), if_neg (by simp [newPkt, Body.tag])]
  simp only [newPkt, Body.keyPart, hv, Out.ok_bind]
  rfl

theorem readAllMPIs_prefix {data rest : Bytes} : ∀ (l : List Nat) (fuel pos : Nat) (out : List Nat), data.drop pos = writeMPIs l ++ rest →
    rest ≠ [] → (∀ a ∈ l, bitsize a ≤ 65528) → readAllMPIs data fuel pos = .ok out → ∃ extra, extra ≠ [] ∧ out = l ++ extra
  | l, 0, pos, out, _, _, _, h => by simp [readAllMPIs] at h
  | [], fuel + 1, pos, out, hd, hne, _, h => by
    have hlt : pos < data.length := by
      by_contra hc
      rw [List.drop_eq_nil_of_le (by omega)] at hd
      simp [writeMPIs] at hd
      exact hne hd
    rw [readAllMPIs, if_pos hlt] at h
    obtain ⟨⟨a, p⟩, -, h⟩ := Out.bind_eq_ok.mp h
    obtain ⟨l', -, h⟩ := Out.bind_eq_ok.mp h
    obtain rfl := Out.ok.inj h
    exact ⟨a :: l', by simp, rfl⟩
  | b :: l, fuel + 1, pos, out, hd, hne, hb, h => by
    have hlt : pos < data.length := by
      by_contra hc
      rw [List.drop_eq_nil_of_le (by omega)] at hd
      have := congrArg List.length hd
      simp only [List.length_append, List.length_nil] at this
      exact hne (List.eq_nil_of_length_eq_zero (by omega))
    have hw : data.drop pos = mpiOctets b ++ (writeMPIs l ++ rest) := by
      rw [hd, ← List.append_assoc]
      rfl
    rw [readAllMPIs, if_pos hlt, readMPI_at hw (hb b (by simp)), Out.ok_bind] at h
    obtain ⟨l', hl', h⟩ := Out.bind_eq_ok.mp h
    obtain rfl := Out.ok.inj h
    have hd' : data.drop (pos + (mpiOctets b).length) = writeMPIs l ++ rest := by
      rw [← List.drop_drop, hw, List.drop_left]
    obtain ⟨extra, h1, h2⟩ := readAllMPIs_prefix l fuel _ l' hd' hne (fun a ha => hb a (by simp [ha])) hl'
    exact ⟨extra, h1, by rw [h2]; rfl⟩

/-- Disagreement: with a passphrase the secret values of a subkey are not recovered. Their octets are followed by two digests where one is
expected, and the first is read as further values; anything that is returned is longer than what was stored. -/
theorem C45_subkey_passphrase_fails (cr : Crypto) (hcr : cr.Ok) (rawE : E → Bytes) (c : KeyConfig) (now : Nat) (hnow : now < 2 ^ 32) (r : KeyRand)
    (hr : r.Good c.pka c.bits) (nonces : List (List Nat)) (subs : List (KeyRand × List Nat))
    (hsubs : ∀ p ∈ c.subkeys.zip subs, p.2.1.Good p.1.pka p.1.bits) (k : KeyObj E)
    (h : generateKey cr rawE c now r nonces subs = .ok k) (hp : c.pass ≠ []) (p : Pkt E) (t : Tag5) (hmem : p ∈ k.packets)
    (ht : p.body = .secretSubkey t) :
    ∃ pri, KeyPair t.key.pka t.key.mpi pri ∧ (∃ rest, t.plainSecret cr c.pass = .ok (writeMPIs pri ++ rest)) ∧
      ∀ l, t.decryptSecretKeys cr c.pass = .ok l → ∃ extra, extra ≠ [] ∧ l = pri ++ extra := by
  obtain ⟨-, -, primary, pri, sigs, sk, hg⟩ := C45_generated cr hcr rawE c now hnow r hr nonces subs hsubs k h (List.ne_nil_of_mem hmem)
  rw [hg.packets] at hmem
  rcases List.mem_cons.mp hmem with rfl | hmem
  · simp [newPkt] at ht
  rcases List.mem_append.mp hmem with hmem | hmem
  · obtain ⟨q, -, hq⟩ := List.mem_flatMap.mp hmem
    simp only [List.mem_cons, List.not_mem_nil, or_false] at hq
    rcases hq with rfl | rfl <;> simp [newPkt] at ht
  · obtain ⟨q, hq1, hq⟩ := List.mem_flatMap.mp hmem
    simp only [List.mem_cons, List.not_mem_nil, or_false] at hq
    rcases hq with rfl | rfl
    · obtain rfl : q.1 = t := by simpa [newPkt] using ht
      obtain ⟨c', -, hm⟩ := forall₂_right hg.subkeys q hq1
      obtain ⟨sum, sum', h1, h2, h3, h4⟩ := hm.protected_ hp
      refine ⟨q.2.2, hm.fields.2.2 ▸ hm.pair, ⟨sum ++ sum', by rw [h3, List.append_assoc]⟩, fun l hl => ?_⟩
      rw [h4] at hl
      refine readAllMPIs_prefix q.2.2 _ 0 l rfl (by rintro rfl; simp at h1) hm.bits hl
    · simp [newPkt] at ht

/-! ### A configuration and random values meeting the hypotheses -/

/-- A DSA primary key, two user IDs, an ElGamal and a DSA subkey. -/
def c45Config (pass : Bytes) : KeyConfig :=
  ⟨pass, 17, 2048, 9, 8, [⟨ascii "A", [], ascii "a@b", 8⟩, ⟨[], ascii "c", [], 10⟩], [⟨16, 2048, 7, 8, 8⟩, ⟨17, 2048, 7, 8, 8⟩]⟩

/-- p = 23, q = 11. -/
def c45Rand : KeyRand := ⟨fun _ => 3, (· == 23), 11, 23, 1, [6], [[3, 4, 5]], List.replicate 8 1, List.replicate 16 2⟩

def c45Subs : List (KeyRand × List Nat) := [(c45Rand, [3, 4, 5]), (c45Rand, [3, 4, 5])]

theorem c45_good (pka : UInt8) (h : pka = 16 ∨ pka = 17) : c45Rand.Good pka 2048 where
  nextprime := fun _ => by change Nat.Prime 3; norm_num
  test := fun p hp => by
    obtain rfl : p = 23 := by simpa [c45Rand] using hp
    norm_num
  aux := fun _ => ⟨by change Nat.Prime 11; norm_num, by decide⟩
  values := by
    intro pub pri hg
    have h1 : generateKeypair c45Rand 16 (generateParams 16 1024) = .ok (some ([23, 4, 2], [6])) := by decide +kernel
    have h2 : generateKeypair c45Rand 17 (generateParams 17 1024) = .ok (some ([23, 11, 4, 2], [6])) := by decide +kernel
    rcases h with rfl | rfl
    · rw [h1] at hg
      simp only [Out.ok.injEq, Option.some.injEq, Prod.mk.injEq] at hg
      obtain ⟨rfl, rfl⟩ := hg
      exact ⟨by decide +kernel, by simp⟩
    · rw [h2] at hg
      simp only [Out.ok.injEq, Option.some.injEq, Prod.mk.injEq] at hg
      obtain ⟨rfl, rfl⟩ := hg
      exact ⟨by decide +kernel, by simp⟩

example (pass : Bytes) : ∀ p ∈ (c45Config pass).subkeys.zip c45Subs, p.2.1.Good p.1.pka p.1.bits := by
  intro p hp
  simp only [c45Config, c45Subs, List.zip_cons_cons, List.zip_nil_left, List.mem_cons, List.not_mem_nil, or_false] at hp
  rcases hp with rfl | rfl
  · exact c45_good 16 (Or.inl rfl)
  · exact c45_good 17 (Or.inr rfl)

example : ∃ k, generateKey c43Crypto noE (c45Config []) 7 c45Rand [[3, 4, 5], [3, 4, 5]] c45Subs = .ok k ∧
    decide (tagsOf k = [5, 13, 2, 13, 2, 7, 2, 7, 2]) = true :=
  ok_of_check (P := fun r => decide (tagsOf r = [5, 13, 2, 13, 2, 7, 2, 7, 2])) (by decide +kernel)
example : userText ⟨ascii "A", [], ascii "a@b", 8⟩ = ascii "A <a@b>" := by decide +kernel
example : userText ⟨[], ascii "c", [], 8⟩ = ascii "(c)" := by decide +kernel
/-- With a passphrase (a long one, so that few repetitions give the 65536 octets hashed). -/
def c45Crypto : Crypto := { demoCrypto with hash := fun a _ => List.replicate ((hashLen a).getD 0) 9 }
theorem c45Crypto_ok : c45Crypto.Ok := { demoCrypto_ok with hash_len := by intro a n d h; simp [c45Crypto, h] }
example : ∃ k, generateKey c45Crypto noE (c45Config (List.replicate 504 1)) 7 c45Rand [[3, 4, 5], [3, 4, 5]] c45Subs = .ok k ∧
    decide (tagsOf k = [5, 13, 2, 13, 2, 7, 2, 7, 2]) = true :=
  ok_of_check (P := fun r => decide (tagsOf r = [5, 13, 2, 13, 2, 7, 2, 7, 2])) (by decide +kernel)

end OpenPGP
