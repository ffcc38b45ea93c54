import Verif.Spec.SessionNumbers
import Verif.Props.C26
import Verif.Props.C78
import Verif.Props.C77

/-!
# C79: the numbers of session key packets are those of RFC 4880

What `Encrypt::pka` puts into the packet and what `Decrypt::pka` takes out of it, against RFC 4880 and RFC 3447.
-/
namespace OpenPGP

theorem rfcSession_eq (sym : UInt8) (key : Bytes) : sessionOctets sym key = rfcSessionOctets sym key := by
  have hfold : ∀ (l : Bytes) (a : Nat), l.foldl (fun a c => a + c.toNat) a = a + (l.map UInt8.toNat).sum := by
    intro l
    induction l with
    | nil => intro a; simp
    | cons c l ih => intro a; rw [List.foldl_cons, ih, List.map_cons, List.sum_cons]; omega
  rw [sessionOctets, rfcSessionOctets, octetSum, hfold, Nat.zero_add]
  simp

theorem rfcSession_length (sym : UInt8) (key : Bytes) : (rfcSessionOctets sym key).length = key.length + 3 := by
  simp [rfcSessionOctets]

theorem rfcEncoded_length (ps : Bytes) (sym : UInt8) (key : Bytes) : (rfcSessionEncoded ps sym key).length = ps.length + key.length + 6 := by
  simp [rfcSessionEncoded, rfcSession_length]; omega

theorem mpiRaw_encoded (ps : Bytes) (sym : UInt8) (key : Bytes) :
    mpiRaw (num (rfcSessionEncoded ps sym key)) = 2 :: (ps ++ 0 :: rfcSessionOctets sym key) := by
  have : num (rfcSessionEncoded ps sym key) = num (2 :: (ps ++ 0 :: rfcSessionOctets sym key)) := by
    rw [rfcSessionEncoded, num_cons]; simp
  rw [this, mpiRaw_num (by decide)]

theorem parse_encoded {ps : Bytes} (hps : ∀ c ∈ ps, c ≠ 0) (sym : UInt8) (key : Bytes) (hl : 6 ≤ ps.length + key.length) :
    parseSessionKey (mpiRaw (num (rfcSessionEncoded ps sym key))) = .ok (some (sym, key)) := by
  rw [mpiRaw_encoded]
  refine parseSessionKey_ok (C18_decode (ps := ps) ⟨?_, hps⟩ ?_)
  · rw [rfcSession_eq]; simp
  · simp [rfcSession_length]; omega

/-- Whatever is wrapped for a key with enough room is an encryption of a number that stands for the session key. -/
theorem C79_wrapped {pka : UInt8} {pub pri : List Nat} (hk : EncryptionKey pka pub pri) {n : Nat} (hn : pub[0]? = some n)
    (sym : UInt8) (key draws : Bytes) (eph : Nat) (hfit : key.length + 14 ≤ (n.size + 7) / 8) (hsmall : (n.size + 7) / 8 < 2 ^ 32)
    {c : List Nat} (h : wrapSessionKey pka pub draws eph sym key = .ok c) : ∃ m, SessionNumber n sym key m ∧ EncryptionOf pka pub c m := by
  have hn0 : n ≠ 0 := by
    obtain ⟨n', h1, h2, -⟩ := hk.modulus
    rw [hn] at h1; rw [Option.some.inj h1]; exact h2
  have hk8 : modulusOctets n = (n.size + 7) / 8 := by
    rw [modulusOctets_eq, ← bitsize_size hn0, bitsize]; omega
  have hml := sessionOctets_length sym key
  have hv : vecAt pub 0 = .ok n := by rw [vecAt, hn]
  rw [wrapSessionKey, hv, Out.ok_bind, hk8] at h
  obtain ⟨em, hem, h5⟩ := Out.bind_eq_ok.mp h
  clear h
  obtain ⟨⟨he, hz⟩, hl, hpl⟩ := C18_encode hsmall (by omega) hem
  generalize (draws.filter (· ≠ 0)).take ((n.size + 7) / 8 - (sessionOctets sym key).length - 3) = ps at he hz hpl
  have he' : em = rfcSessionEncoded ps sym key := by rw [he, rfcSession_eq, rfcSessionEncoded]; simp
  have hne : em ≠ [] := by rw [he']; simp [rfcSessionEncoded]
  have hlt : num em < n := by
    have h1 : num em < 256 ^ ((n.size + 7) / 8 - 1) := by
      have h2 := num_lt (2 :: (ps ++ 0 :: rfcSessionOctets sym key))
      have h3 : num em = num (2 :: (ps ++ 0 :: rfcSessionOctets sym key)) := by rw [he', rfcSessionEncoded, num_cons]; simp
      have h4 : (2 :: (ps ++ 0 :: rfcSessionOctets sym key)).length + 1 = em.length := by rw [he', rfcSessionEncoded]; simp
      rw [h3]
      rwa [show (2 :: (ps ++ 0 :: rfcSessionOctets sym key)).length = (n.size + 7) / 8 - 1 by omega] at h2
    have h2 : 2 ^ (n.size - 1) ≤ n := Nat.lt_size.mp (by omega)
    refine lt_of_lt_of_le h1 (le_trans ?_ h2)
    rw [show (256 : Nat) = 2 ^ 8 by norm_num, ← Nat.pow_mul]
    exact Nat.pow_le_pow_right (by norm_num) (by omega)
  have hs : SessionNumber n sym key (num em) := ⟨ps, hz, by omega, by rw [← he', hl], by rw [← he']⟩
  rw [rawtompi_eq, if_neg hne, Out.ok_bind] at h5
  rcases hk with ⟨hp, p, q, e, d, rest, hpp, hqp, -, h2, h2', rfl, rfl, -⟩ | ⟨rfl, p, g, y, x, hpp, h2, -, rfl, rfl, -⟩
  · obtain rfl : p * q = n := by simpa using hn
    rw [if_pos hp] at h5
    simp only [rsaEncrypt, vecAt, List.getElem?_cons_zero, List.getElem?_cons_succ, Out.ok_bind, powm_odd (mod_odd_mul hpp hqp h2 h2'), Out.pure_eq] at h5
    cases h5
    exact ⟨num em, hs, Or.inl ⟨hp, _, _, rfl, hlt, rfl⟩⟩
  · obtain rfl : p = n := by simpa using hn
    rw [if_neg (by decide), if_pos rfl] at h5
    simp only [elgamalEncrypt, vecAt, List.getElem?_cons_zero, List.getElem?_cons_succ, Out.ok_bind, powm_odd (odd_of_prime hpp h2), if_neg hpp.ne_zero, Out.pure_eq] at h5
    cases h5
    refine ⟨num em, hs, Or.inr ⟨rfl, _, _, _, eph % p, rfl, hlt, ?_⟩⟩
    rw [Nat.mul_mod, Nat.mod_mod, ← Nat.mul_mod]

/-- The packet made for a key with enough room holds an encryption of a number that stands for the session key, and is made whenever enough random octets are drawn. -/
theorem C79_wrap {pka : UInt8} {pub pri : List Nat} (hk : EncryptionKey pka pub pri) {n : Nat} (hn : pub[0]? = some n)
    (sym : UInt8) (key draws : Bytes) (eph : Nat) (hfit : key.length + 14 ≤ (n.size + 7) / 8) (hsmall : (n.size + 7) / 8 < 2 ^ 32)
    (hd : (n.size + 7) / 8 ≤ (draws.filter (· ≠ 0)).length) :
    ∃ c m, wrapSessionKey pka pub draws eph sym key = .ok c ∧ SessionNumber n sym key m ∧ EncryptionOf pka pub c m := by
  have hn0 : n ≠ 0 := by
    obtain ⟨n', h1, h2, -⟩ := hk.modulus
    rw [hn] at h1; rw [Option.some.inj h1]; exact h2
  have he : n.log2 / 8 + 1 = (n.size + 7) / 8 := by rw [← bitsize_size hn0, bitsize]; omega
  obtain ⟨c, hc, -⟩ := C26_session_key hk hn sym key draws eph (by omega) (by omega) (by omega)
  obtain ⟨m, h1, h2⟩ := C79_wrapped hk hn sym key draws eph hfit hsmall hc
  exact ⟨c, m, hc, h1, h2⟩

open Policy in
/-- Every message `Encrypt::pka` makes holds one session key packet, for the first key packet that can encrypt; for a key with enough room its values are an encryption of a number that stands for the cipher asked
for and the session key drawn. -/
theorem C79_message {E : Type} (cr : Crypto) (z : Zip) (rawE : E → Bytes) (k : KeyObj E) (h : k.meaningful = .ok true) (a : EncArgs) (sk draws : Bytes) (eph : Nat) (rand : Bytes) (m : Msg E)
    (hm : encryptPka cr z rawE a k sk draws eph rand = .ok m) (hne : m.packets ≠ []) :
    ∃ (kp : KeyPkt) (kid : Bytes) (c : List Nat) (e : Pkt E), m.packets = [⟨.new, false, .pkesk ⟨3, kid, kp.pka, c⟩⟩, e] ∧ kp.keyid cr = .ok kid ∧
      (∃ before x after, keyPackets k.packets = before ++ x :: after ∧ x.keyPart = some kp ∧ (kp.pka = 1 ∨ kp.pka = 2 ∨ kp.pka = 16) ∧
        ∀ y ∈ before, ∀ q, y.keyPart = some q → ¬ (q.pka = 1 ∨ q.pka = 2 ∨ q.pka = 16)) ∧
      ∀ pri n, EncryptionKey kp.pka kp.mpi pri → kp.mpi[0]? = some n → sk.length + 14 ≤ (n.size + 7) / 8 → (n.size + 7) / 8 < 2 ^ 32 →
        ∃ i, SessionNumber n a.sym sk i ∧ EncryptionOf kp.pka kp.mpi c i := by
  have can : ∀ p : UInt8, canEncrypt p = true ↔ p = 1 ∨ p = 2 ∨ p = 16 := by intro p; simp [canEncrypt, or_assoc]
  unfold encryptPka at hm
  split at hm
  · obtain rfl := Out.ok.inj hm; exact absurd rfl hne
  rw [h, Out.ok_bind] at hm
  simp only [Bool.not_true, Bool.false_eq_true, if_false] at hm
  obtain ⟨r, hr, hm⟩ := Out.bind_eq_ok.mp hm
  cases r with
  | yes => obtain rfl := Out.ok.inj hm; exact absurd rfl hne
  | error => obtain rfl := Out.ok.inj hm; exact absurd rfl hne
  | no =>
    rw [findEncryptKey_meaningful h] at hm
    dsimp only at hm
    cases hf : ((keyPackets k.packets).filterMap Body.keyPart).find? fun kp => canEncrypt kp.pka with
    | none => rw [hf] at hm; obtain rfl := Out.ok.inj hm; exact absurd rfl hne
    | some kp =>
      rw [hf] at hm
      dsimp only at hm
      obtain ⟨kid, hkid, hm⟩ := Out.bind_eq_ok.mp hm
      obtain ⟨n, -, hm⟩ := Out.bind_eq_ok.mp hm
      split at hm
      · cases hm
      obtain ⟨c, hc, hm⟩ := Out.bind_eq_ok.mp hm
      obtain ⟨e, -, hm⟩ := Out.bind_eq_ok.mp hm
      cases e with
      | none => obtain rfl := Out.ok.inj hm; exact absurd rfl hne
      | some e =>
        obtain rfl := Out.ok.inj hm
        obtain ⟨before, x, after, h1, h2, h3, h4⟩ := find_split hf
        exact ⟨kp, kid, c, e, rfl, hkid, ⟨before, x, after, h1, h2, (can _).mp h3, fun y hy q hq hc => h4 y hy q hq ((can _).mpr hc)⟩,
          fun pri n hk hn hfit hsmall => C79_wrapped hk hn a.sym sk draws eph hfit hsmall hc⟩

/-- What the recipient makes of an encryption of a number: the octets of the number. -/
theorem unwrap_carries {pka : UInt8} {pub pri c : List Nat} {m : Nat} (hk : EncryptionKey pka pub pri) (hc : EncryptionOf pka pub c m) (t : Tag1) (h1 : t.pka = pka) (h2 : t.mpi = c) :
    unwrapSessionKey t pri pub = .ok (mpiRaw m) := by
  rcases hk with ⟨hp, hr⟩ | ⟨rfl, he⟩
  · obtain ⟨-, n, e, rfl, hm, rfl⟩ : (pka = 1 ∨ pka = 2) ∧ ∃ n e, pub = [n, e] ∧ m < n ∧ c = [m ^ e % n] := by
      rcases hc with h | ⟨rfl, -⟩
      · exact h
      · rcases hp with h | h <;> cases h
    obtain ⟨⟨c, hc1, -, hc2⟩, -⟩ := C23_roundtrip hr (n := n) (by simp) hm
    have hodd : n % 2 = 1 := by
      obtain ⟨p, q, _, _, _, hp, hq, -, h2, h2', he, -⟩ := hr
      rw [(List.cons.inj he).1]; exact mod_odd_mul hp hq h2 h2'
    simp only [rsaEncrypt, vecAt, List.getElem?_cons_zero, List.getElem?_cons_succ, Out.ok_bind, powm_odd hodd] at hc1
    cases hc1
    rw [unwrapSessionKey, h1, if_pos hp, h2, show vecAt [m ^ e % n] 0 = .ok (m ^ e % n) from rfl, Out.ok_bind, hc2, Out.ok_bind, mpitoraw_eq]
  · obtain ⟨-, p, g, y, k, rfl, hm, rfl⟩ : (16 : UInt8) = 16 ∧ ∃ p g y k, pub = [p, g, y] ∧ m < p ∧ c = [g ^ k % p, m * y ^ k % p] := by
      rcases hc with ⟨h | h, -⟩ | h
      · cases h
      · cases h
      · exact h
    obtain ⟨p', g', y', x, hp, h2', hg, he, rfl, hy⟩ := he
    cases he
    have hodd := odd_of_prime hp h2'
    -- any exponent is one the code could have drawn, up to the order of the group
    have hf : ∀ a : Nat, ¬ p ∣ a → a ^ k % p = a ^ (k % (p - 1)) % p := by
      intro a ha
      have h1 : a ^ (p - 1) % p = 1 % p := by
        have : Fact p.Prime := ⟨hp⟩
        have ha0 : (a : ZMod p) ≠ 0 := fun h => ha ((ZMod.natCast_eq_zero_iff a p).mp h)
        have := ZMod.pow_card_sub_one_eq_one ha0
        have h2 : ((a ^ (p - 1) : Nat) : ZMod p) = ((1 : Nat) : ZMod p) := by push_cast; exact this
        exact (ZMod.natCast_eq_natCast_iff' _ _ _).mp h2
      have h1' : a ^ (p - 1) ≡ 1 [MOD p] := h1
      have := (h1'.pow (k / (p - 1))).mul_right (a ^ (k % (p - 1)))
      rw [← Nat.pow_mul, ← Nat.pow_add, Nat.one_pow, Nat.one_mul, Nat.div_add_mod] at this
      exact this
    have hyd : ¬ p ∣ y := by
      rw [hy]
      intro h
      have : p ∣ g ^ x := (Nat.dvd_mod_iff dvd_rfl).mp h
      exact hg (hp.dvd_of_dvd_pow this)
    have hkk : (k % (p - 1)) % p = k % (p - 1) := Nat.mod_eq_of_lt (lt_of_lt_of_le (Nat.mod_lt _ (by have := hp.two_le; omega)) (Nat.sub_le _ _))
    obtain ⟨c, hc1, hc2⟩ := C24_roundtrip (pub := [p, g, y]) (pri := [x]) ⟨p, g, y, x, hp, h2', hg, rfl, rfl, hy⟩ (by simp) hm (k % (p - 1))
    simp only [elgamalEncrypt, vecAt, List.getElem?_cons_zero, List.getElem?_cons_succ, Out.ok_bind, powm_odd hodd, if_neg hp.ne_zero, Out.pure_eq, hkk] at hc1
    cases hc1
    rw [unwrapSessionKey, h1, if_neg (by decide), if_pos rfl, h2, hf g hg, Nat.mul_mod m, hf y hyd, ← mpitoraw_eq, ← hc2, Nat.mul_mod m (_ % p), Nat.mod_mod]

/-- Whatever another program encrypts to a key as the RFC has it, with any padding and any exponent, the recipient gets the session key. -/
theorem C79_unwrap {pka : UInt8} {pub pri c : List Nat} {n m : Nat} {sym : UInt8} {key : Bytes} (hk : EncryptionKey pka pub pri) (hm : SessionNumber n sym key m)
    (hc : EncryptionOf pka pub c m) (t : Tag1) (h1 : t.pka = pka) (h2 : t.mpi = c) :
    ∃ o, unwrapSessionKey t pri pub = .ok o ∧ parseSessionKey o = .ok (some (sym, key)) := by
  obtain ⟨ps, hps, h8, -, rfl⟩ := hm
  exact ⟨_, unwrap_carries hk hc t h1 h2, parse_encoded hps sym key (by omega)⟩

/-- Of the numbers the recipient takes, for keys of more than one octet, those with eight octets of padding that have the length of the modulus are the RFC's. -/
theorem C79_only_partial {n m : Nat} {sym : UInt8} {key : Bytes} (hkey : key.length ≠ 1) (h : parseSessionKey (mpiRaw m) = .ok (some (sym, key))) :
    (∃ ps : Bytes, (∀ c ∈ ps, c ≠ 0) ∧ m = num (rfcSessionEncoded ps sym key)) ∧
      (key.length + 14 ≤ (mpiRaw m).length + 1 → (mpiRaw m).length + 1 = (n.size + 7) / 8 → SessionNumber n sym key m) := by
  rcases C26_accepts_only h with ⟨ps, hps, he⟩ | ⟨ps, -, b, hb, -⟩
  · have hb : be 2 ((key.map UInt8.toNat).sum) = be 2 ((key.map UInt8.toNat).sum % 65536) := by
      rw [show (65536 : Nat) = 256 ^ 2 by norm_num, be_mod]
    have he' : 0 :: mpiRaw m = rfcSessionEncoded ps sym key := by
      rw [he, rfcSessionEncoded, rfcSessionOctets, hb]; simp
    have hm : m = num (rfcSessionEncoded ps sym key) := by
      rw [← he', num_cons, num_mpiRaw]; simp
    refine ⟨⟨ps, hps, hm⟩, fun h14 hk => ⟨ps, hps, ?_, ?_, hm⟩⟩
    · have := congrArg List.length he'
      rw [rfcEncoded_length, List.length_cons] at this
      omega
    · rw [← he', List.length_cons, hk]
  · rw [hb] at hkey; exact absurd rfl hkey

/-- Encodings of any length above eleven octets and any padding, none even, are taken: numbers that stand for no session key under the modulus. -/
theorem C79_padding_fails {n : Nat} (ps : Bytes) (hps : ∀ c ∈ ps, c ≠ 0) (sym : UInt8) (key : Bytes) (hl : 6 ≤ ps.length + key.length)
    (hn : ps.length + key.length + 6 ≠ (n.size + 7) / 8 ∨ ps.length < 8) :
    parseSessionKey (mpiRaw (num (rfcSessionEncoded ps sym key))) = .ok (some (sym, key)) ∧
      ¬ ∃ sym' key', SessionNumber n sym' key' (num (rfcSessionEncoded ps sym key)) := by
  refine ⟨parse_encoded hps sym key hl, ?_⟩
  rintro ⟨sym', key', ps', hps', h8, hlen, he⟩
  have h := congrArg mpiRaw he
  rw [mpiRaw_encoded, mpiRaw_encoded] at h
  have ht := (List.cons.inj h).2
  have hpp : ps = ps' := by
    have key : ∀ (a b s t : Bytes), (∀ c ∈ a, c ≠ 0) → (∀ c ∈ b, c ≠ 0) → a ++ 0 :: s = b ++ 0 :: t → a = b := by
      intro a
      induction a with
      | nil =>
        intro b s t _ hb h
        rcases b with - | ⟨c, b⟩
        · rfl
        · exact absurd (List.cons.inj h).1.symm (hb c (by simp))
      | cons c a ih =>
        intro b s t ha hb h
        rcases b with - | ⟨c', b⟩
        · exact absurd (List.cons.inj h).1 (ha c (by simp))
        · obtain ⟨rfl, h'⟩ := List.cons.inj h
          rw [ih b s t (fun x hx => ha x (List.mem_cons_of_mem _ hx)) (fun x hx => hb x (List.mem_cons_of_mem _ hx)) h']
    exact key _ _ _ _ hps hps' ht
  rcases hn with hn | hn
  · have h2 := congrArg List.length ht
    rw [rfcEncoded_length] at hlen
    simp only [List.length_append, List.length_cons, rfcSession_length] at h2
    omega
  · rw [hpp] at hn
    omega

/-- The key of C26 has 234 bits, thirty octets: room for a session key of 16 octets, and its numbers. -/
theorem c79_234 : Nat.size (mersenne 127 * mersenne 107) = 234 :=
  le_antisymm (Nat.size_le.mpr (by decide +kernel)) (Nat.lt_size.mpr (by decide +kernel))

example : ∃ c m, wrapSessionKey 1 c26Pub (List.replicate 30 5) 0 7 (List.replicate 16 9) = .ok c ∧ SessionNumber (mersenne 127 * mersenne 107) 7 (List.replicate 16 9) m ∧ EncryptionOf 1 c26Pub c m :=
  C79_wrap (pri := c26Pri) c26_key
    rfl 7 _ _ 0 (by rw [c79_234]; decide) (by rw [c79_234]; decide) (by rw [c79_234]; decide +kernel)

/-- A message for it. -/
example : (⟨.pub, [⟨.new, false, .publicKey c26Tag5.key⟩, ⟨.new, false, .userId [97]⟩, ⟨.new, false, .sig (c30Sig 0x13)⟩]⟩ : KeyObj Empty).meaningful = .ok true ∧
    (match encryptPka demoCrypto demoZip (fun e => nomatch e) c26Args (⟨.pub, [⟨.new, false, .publicKey c26Tag5.key⟩, ⟨.new, false, .userId [97]⟩, ⟨.new, false, .sig (c30Sig 0x13)⟩]⟩ : KeyObj Empty)
      (List.replicate 16 9) (List.replicate 40 5) 0 (List.replicate 16 3) with
    | .ok m => !m.packets.isEmpty
    | _ => false) = true := ⟨by decide +kernel, by decide +kernel⟩

/-- The session key without padding. -/
example : parseSessionKey (mpiRaw (num (rfcSessionEncoded [] 7 (List.replicate 16 9)))) = .ok (some (7, List.replicate 16 9)) ∧
    ¬ ∃ sym' key', SessionNumber (mersenne 127 * mersenne 107) sym' key' (num (rfcSessionEncoded [] 7 (List.replicate 16 9))) :=
  C79_padding_fails [] (by simp) 7 _ (by decide) (Or.inr (by decide))

/-- An encryption to a key of ElGamal with an exponent greater than the prime. -/
example : EncryptionKey 16 [23, 5, 8] [6] ∧ EncryptionOf 16 [23, 5, 8] [5 ^ 100 % 23, 9 * 8 ^ 100 % 23] 9 :=
  ⟨Or.inr ⟨rfl, 23, 5, 8, 6, by norm_num, by decide, by decide, rfl, rfl, by decide⟩, Or.inr ⟨rfl, 23, 5, 8, 100, rfl, by decide, rfl⟩⟩

end OpenPGP
