import Verif.Model.CryptPka
import Verif.Props.C11
import Verif.Props.C18
import Verif.Props.C23
import Verif.Props.C24
import Verif.Props.C27
import Verif.Props.C31
import Verif.Props.C44
import Mathlib.NumberTheory.LucasLehmer

/-!
# C26: the session key reaches the recipient unchanged
-/
namespace OpenPGP
open KeyObj

/-- `pub` and `pri` form a key of the encryption algorithm `pka`: RSA (1, 2) or ElGamal (16). -/
def EncryptionKey (pka : UInt8) (pub pri : List Nat) : Prop :=
  ((pka = 1 ∨ pka = 2) ∧ RsaKey pub pri) ∨ (pka = 16 ∧ ElgamalKey pub pri)

theorem EncryptionKey.canEncrypt {pka : UInt8} {pub pri : List Nat} (h : EncryptionKey pka pub pri) : canEncrypt pka = true := by
  rcases h with ⟨rfl | rfl, -⟩ | ⟨rfl, -⟩ <;> rfl

theorem EncryptionKey.modulus {pka : UInt8} {pub pri : List Nat} (h : EncryptionKey pka pub pri) :
    ∃ n, pub[0]? = some n ∧ n ≠ 0 ∧ pri ≠ [] := by
  rcases h with ⟨-, p, q, e, d, rest, hp, hq, -, -, -, rfl, rfl, -⟩ | ⟨-, p, g, y, x, hp, -, -, rfl, rfl, -⟩
  · exact ⟨p * q, rfl, Nat.mul_ne_zero hp.ne_zero hq.ne_zero, by simp⟩
  · exact ⟨p, rfl, hp.ne_zero, by simp⟩

theorem modulusOctets_eq (n : Nat) : modulusOctets n = n.log2 / 8 + 1 := by
  rw [modulusOctets, mpitohex_eq, makehex_length]; omega

theorem sessionOctets_length (sym : UInt8) (key : Bytes) : (sessionOctets sym key).length = key.length + 3 := by
  simp only [sessionOctets, List.length_append, List.length_singleton, be_length]; omega

/-- What the receiver makes of correctly padded octets. -/
theorem parseSessionKey_ok {o : Bytes} {sym : UInt8} {key : Bytes} (h : emeDecode (0 :: o) = .ok (sessionOctets sym key)) :
    parseSessionKey o = .ok (some (sym, key)) := by
  have hl := sessionOctets_length sym key
  have e2 : subSz (sessionOctets sym key).length 2 = key.length + 1 := by
    rw [hl]; unfold subSz; rw [if_pos (by omega)]; omega
  have e3 : subSz (sessionOctets sym key).length 3 = key.length := by
    rw [hl]; unfold subSz; rw [if_pos (by omega)]; omega
  rw [parseSessionKey, h, Out.ok_bind, if_neg (by intro h0; rw [h0] at hl; simp at hl), e2, e3]
  have hc : charAt (sessionOctets sym key) 0 = .ok sym := rfl
  rw [hc, Out.ok_bind, substr_take (by omega), Out.ok_bind, substr_take (by omega), Out.ok_bind]
  have d1 : (sessionOctets sym key).drop (key.length + 1) = be 2 (octetSum key) := by
    rw [sessionOctets, List.drop_left' (by simp)]
  have d2 : ((sessionOctets sym key).drop 1).take key.length = key := by
    rw [sessionOctets, List.append_assoc]
    change (key ++ be 2 (octetSum key)).take key.length = key
    exact List.take_left' rfl
  rw [d1, d2, List.take_of_length_le (by simp), if_neg (not_not.mpr rfl)]
  rfl

/-- The session key packet: for every RSA or ElGamal key with at least 14 octets more than the session key, every cipher octet,
session key, padding drawn and ElGamal exponent drawn, the recipient's secret values give back cipher octet and session key. -/
theorem C26_session_key {pka : UInt8} {pub pri : List Nat} (hk : EncryptionKey pka pub pri) {n : Nat} (hn : pub[0]? = some n)
    (sym : UInt8) (key draws : Bytes) (eph : Nat) (hfit : key.length + 14 ≤ n.log2 / 8 + 1) (hsmall : n.log2 / 8 + 1 < 2 ^ 32)
    (hd : n.log2 / 8 + 1 ≤ (draws.filter (· ≠ 0)).length) :
    ∃ c, wrapSessionKey pka pub draws eph sym key = .ok c ∧ ∀ t : Tag1, t.pka = pka → t.mpi = c →
      ∃ o, unwrapSessionKey t pri pub = .ok o ∧ parseSessionKey o = .ok (some (sym, key)) := by
  set m := sessionOctets sym key with hm
  set k := n.log2 / 8 + 1 with hkk
  have hml : m.length = key.length + 3 := sessionOctets_length sym key
  obtain ⟨em, hem⟩ := C18_encode_returns draws m k hsmall (by omega) (by omega)
  obtain ⟨hi, hl, -⟩ := C18_encode hsmall (by omega) hem
  obtain ⟨-, hr⟩ := C18_roundtrip hsmall (by omega) (by omega) hem
  have hcons : em = 0 :: 2 :: ((draws.filter (· ≠ 0)).take (k - m.length - 3) ++ [0] ++ m) := by rw [hi.1]; simp
  have hne : em ≠ [] := by rw [hcons]; simp
  rw [rawtompi_eq, if_neg hne, Out.ok_bind, mpitoraw_eq, Out.ok_bind] at hr
  have hn0 : n ≠ 0 := by
    obtain ⟨n', h1, h2, -⟩ := hk.modulus
    rw [hn] at h1; rw [Option.some.inj h1]; exact h2
  have hlt : num em < n := by
    have h1 : num em < 256 ^ (k - 1) := by
      rw [hcons] at hl ⊢
      rw [num_cons]
      have h2 := num_lt (2 :: ((draws.filter (· ≠ 0)).take (k - m.length - 3) ++ [0] ++ m))
      rw [List.length_cons] at hl
      rw [show (2 :: ((draws.filter (· ≠ 0)).take (k - m.length - 3) ++ [0] ++ m)).length = k - 1 by omega] at h2 ⊢
      simpa using h2
    have h3 : 2 ^ n.log2 ≤ n := Nat.log2_self_le hn0
    have h4 : 256 ^ (k - 1) ≤ 2 ^ n.log2 := by
      rw [show (256 : Nat) = 2 ^ 8 by rfl, ← Nat.pow_mul]
      exact Nat.pow_le_pow_right (by decide) (by omega)
    omega
  have hv : vecAt pub 0 = .ok n := by rw [vecAt, hn]
  have hw : ∀ (f : Nat → Out (List Nat)), (do
      let n ← vecAt pub 0
      let em ← emeEncode draws (sessionOctets sym key) (modulusOctets n)
      let m ← rawtompi em
      f m) = f (num em) := by
    intro f
    rw [hv, Out.ok_bind, modulusOctets_eq, ← hm, ← hkk, hem, Out.ok_bind, rawtompi_eq, if_neg hne, Out.ok_bind]
  rw [wrapSessionKey, hw]
  rcases hk with ⟨hp, hrsa⟩ | ⟨rfl, hel⟩
  · obtain ⟨⟨c, hc1, -, hc2⟩, -⟩ := C23_roundtrip hrsa hn hlt
    refine ⟨[c], ?_, ?_⟩
    · rw [if_pos hp, hc1, Out.ok_bind]; rfl
    · intro t ht1 ht2
      refine ⟨mpiRaw (num em), ?_, parseSessionKey_ok hr⟩
      rw [unwrapSessionKey, ht1, if_pos hp, ht2, show vecAt [c] 0 = .ok c from rfl, Out.ok_bind, hc2, Out.ok_bind, mpitoraw_eq]
  · obtain ⟨c, hc1, hc2⟩ := C24_roundtrip hel hn hlt eph
    refine ⟨c, ?_, ?_⟩
    · rw [if_neg (by decide), if_pos rfl, hc1]
    · intro t ht1 ht2
      refine ⟨mpiRaw (num em), ?_, parseSessionKey_ok hr⟩
      rw [unwrapSessionKey, ht1, if_neg (by decide), if_pos rfl, ht2, hc2, mpitoraw_eq]

/-- The receiver accepts a session key only with proper padding and a matching checksum: the decrypted octets are
`00 02 PS 00 sym key sum`, the sum being the two low octets of the sum of the octets of the key. -/
theorem C26_accepts_only {o : Bytes} {sym : UInt8} {key : Bytes} (h : parseSessionKey o = .ok (some (sym, key))) :
    (∃ ps : Bytes, (∀ c ∈ ps, c ≠ 0) ∧ 0 :: o = [0, 2] ++ ps ++ [0] ++ ([sym] ++ key ++ be 2 ((key.map UInt8.toNat).sum))) ∨
    (∃ ps : Bytes, (∀ c ∈ ps, c ≠ 0) ∧ ∃ b, key = [b] ∧ 0 :: o = [0, 2] ++ ps ++ [0, sym, b] ∧ [sym, b] = be 2 b.toNat) := by
  rw [parseSessionKey] at h
  obtain ⟨s, hs, h⟩ := Out.bind_eq_ok.mp h
  split at h
  · exact absurd (Out.ok.inj h) (by simp)
  rename_i hne
  obtain ⟨-, ps, hps⟩ := C18_decode_only hs hne
  obtain ⟨y, hy, h⟩ := Out.bind_eq_ok.mp h
  obtain ⟨ck, hck, h⟩ := Out.bind_eq_ok.mp h
  obtain ⟨k, hk, h⟩ := Out.bind_eq_ok.mp h
  split at h
  · exact absurd (Out.ok.inj h) (by simp)
  rename_i hsum
  obtain ⟨rfl, rfl⟩ := Prod.mk.inj (Option.some.inj (Out.ok.inj h))
  have hsum := not_not.mp hsum
  have hfold : ∀ (l : Bytes) (a : Nat), l.foldl (fun a c => a + c.toNat) a = a + (l.map UInt8.toNat).sum := by
    intro l
    induction l with
    | nil => intro a; simp
    | cons c l ih => intro a; rw [List.foldl_cons, ih, List.map_cons, List.sum_cons]; omega
  have hbe : ∀ l : Bytes, be 2 (octetSum l) = be 2 ((l.map UInt8.toNat).sum) := by
    intro l
    rw [octetSum, hfold, Nat.zero_add]
    rw [show (65536 : Nat) = 256 ^ 2 by norm_num, be_mod]
  have hsl : s.length ≤ o.length := by
    have := congrArg List.length hps.1
    simp only [List.length_append, List.length_cons, List.length_nil] at this
    omega
  rcases s with - | ⟨a, - | ⟨b, - | ⟨c, r⟩⟩⟩
  · exact absurd rfl hne
  · exfalso
    have : subSz [a].length 2 = 1 + 2 ^ 64 - 2 := rfl
    rw [this, substr, if_pos (by simp)] at hck
    exact absurd hck (by simp)
  · right
    obtain rfl := Out.ok.inj hy
    have e1 : substr [a, b] (subSz [a, b].length 2) 2 = .ok [a, b] := rfl
    have e2 : substr [a, b] 1 (subSz [a, b].length 3) = .ok [b] := rfl
    obtain rfl := Out.ok.inj (e1.symm.trans hck)
    obtain rfl := Out.ok.inj (e2.symm.trans hk)
    refine ⟨ps, hps.2, b, rfl, ?_, ?_⟩
    · rw [hps.1]; simp
    · rw [hbe] at hsum; simpa using hsum.symm
  · left
    obtain rfl := Out.ok.inj hy
    have e3 : subSz (a :: b :: c :: r).length 3 = r.length := by
      simp only [List.length_cons]; unfold subSz; rw [if_pos (by omega)]; omega
    have e2 : subSz (a :: b :: c :: r).length 2 = r.length + 1 := by
      simp only [List.length_cons]; unfold subSz; rw [if_pos (by omega)]; omega
    rw [e2, substr_take (by simp)] at hck
    rw [e3, substr_take (by simp)] at hk
    have hk := Out.ok.inj hk
    have hck := Out.ok.inj hck
    refine ⟨ps, hps.2, ?_⟩
    rw [← hbe, hsum, ← hk, ← hck, hps.1]
    congr 1
    rw [List.append_assoc]
    change _ = [a] ++ _
    rw [List.singleton_append]
    congr 1
    rw [List.drop_succ_cons, List.drop_succ_cons, List.drop_zero, List.take_of_length_le (l := (b :: c :: r).drop r.length)
      (by rw [List.length_drop]; simp only [List.length_cons]; omega), List.take_append_drop]

section
variable {E : Type} {cr : Crypto} {z : Zip}

/-- A mismatching checksum is refused: no message comes out. -/
theorem C26_refused (readE : Bytes → Out E) (depth : Nat) (k : KeyObj E) (pass : Bytes) (m : Msg E) (t1 : Tag1) (t : Tag5)
    (pri : List Nat) (o : Bytes) (hk : k.meaningful = .ok true) (hm : m.meaningful = .ok true)
    (h1 : firstPkesk m.packets = some t1) (ht : findDecryptKey cr t1.keyid none k.packets = .ok (some t))
    (hp : t.decryptSecretKeys cr pass = .ok pri) (hu : unwrapSessionKey t1 pri t.key.mpi = .ok o)
    (hn : parseSessionKey o = .ok none) : decryptPka cr z readE depth k pass m = .ok .empty := by
  rw [decryptPka, hk, Out.ok_bind]
  simp only [Bool.not_true, Bool.false_eq_true, if_false]
  rw [hm, Out.ok_bind]
  simp only [Bool.not_true, Bool.false_eq_true, if_false, h1]
  split
  · rfl
  · rw [ht, Out.ok_bind]
    simp only
    rw [hp, Out.ok_bind]
    split
    · rfl
    · rw [hu, Out.ok_bind, hn]; rfl

theorem findEncryptKey_first (l1 : List (Pkt E)) (p : Pkt E) (l2 : List (Pkt E)) (k : KeyPkt) (hp : p.body.keyPart = some k)
    (hc : canEncrypt k.pka = true) (h : ∀ q ∈ l1, ∀ k', q.body.keyPart = some k' → canEncrypt k'.pka = false) :
    ∀ cur, findEncryptKey cur (l1 ++ p :: l2) = some k := by
  induction l1 with
  | nil => intro cur; rw [List.nil_append]; unfold findEncryptKey; simp only [hp, hc, if_true]
  | cons q l1 ih =>
    intro cur
    have ih := ih fun x hx => h x (by simp [hx])
    rw [List.cons_append]
    unfold findEncryptKey
    cases hq : q.body.keyPart with
    | none => exact ih none
    | some k' => simp only [h q (by simp) k' hq, Bool.false_eq_true, if_false]; exact ih _

theorem KeyPkt.keyid_reread (cr : Crypto) (k : KeyPkt) : k.reread.keyid cr = k.keyid cr :=
  (KeyPkt.SamePublic.identity (KeyPkt.samePublic_reread k) cr).2

theorem findDecryptKey_first (l1 : List (Pkt E)) (p : Pkt E) (l2 : List (Pkt E)) (t : Tag5) (hp : p.body.secretPart = some t)
    (hs : t.Sound) (hc : canEncrypt t.key.pka = true) {kid : Bytes} (hkid : t.key.keyid cr = .ok kid)
    (h : ∀ q ∈ l1, ∀ t', q.body.secretPart = some t' → t'.Sound ∧ (∃ i, t'.key.keyid cr = .ok i) ∧ canEncrypt t'.key.pka = false) :
    ∀ cur, findDecryptKey cr kid cur (l1 ++ p :: l2) = .ok (some t) := by
  induction l1 with
  | nil =>
    intro cur
    rw [List.nil_append]; unfold findDecryptKey
    simp only [hp]
    rw [Tag5.getPublic_eq hs, Out.ok_bind, KeyPkt.keyid_reread, hkid, Out.ok_bind, if_neg (not_not.mpr rfl), if_pos hc]
    rfl
  | cons q l1 ih =>
    intro cur
    have ih := ih fun x hx => h x (by simp [hx])
    rw [List.cons_append]
    unfold findDecryptKey
    cases hq : q.body.secretPart with
    | none => exact ih none
    | some t' =>
      obtain ⟨h1, ⟨i, h2⟩, h3⟩ := h q (by simp) t' hq
      simp only
      rw [Tag5.getPublic_eq h1, Out.ok_bind, KeyPkt.keyid_reread, h2, Out.ok_bind, h3]
      simp only [Bool.false_eq_true, if_false]
      split <;> exact ih _

/-- What the two sides of public-key encryption agree on: the key packet used and the encrypted session key, and that decryption comes
down to that of the data packet behind it. `before`, `p`, `after` are the packets of the secret key; `p` is its first
encryption-capable key packet. -/
theorem pka_frame (z : Zip) (readE : Bytes → Out E) (sym : UInt8) (sec pub : KeyObj E) (hsec : sec.kind = .sec) (hsound : sec.Sound)
    (hmean : sec.meaningful = .ok true) (hpub : sec.getPublic = .ok pub)
    (before after : List (Pkt E)) (p : Pkt E) (t : Tag5) (hpk : sec.packets = before ++ p :: after)
    (hp : p.body.secretPart = some t)
    (hbefore : ∀ q ∈ before, ∀ t', q.body.secretPart = some t' → (∃ i, t'.key.keyid cr = .ok i) ∧ canEncrypt t'.key.pka = false)
    {kid : Bytes} (hkid : t.key.keyid cr = .ok kid) (pass : Bytes) (pri : List Nat)
    (hpri : t.decryptSecretKeys cr pass = .ok pri) (hkey : EncryptionKey t.key.pka t.key.mpi pri)
    {modulus n : Nat} (hmod : t.key.mpi[0]? = some modulus) (hfit : n + 14 ≤ modulus.log2 / 8 + 1)
    (hsmall : modulus.log2 / 8 + 1 < 2 ^ 32) (sk draws : Bytes) (eph : Nat) (hsk : sk.length = n)
    (hd : modulus.log2 / 8 + 1 ≤ (draws.filter (· ≠ 0)).length) (depth : Nat) :
    ∃ kp c, pub.meaningful = .ok true ∧ findEncryptKey none pub.packets = some kp ∧ kp.keyid cr = .ok kid ∧
      wrapSessionKey kp.pka kp.mpi draws eph sym sk = .ok c ∧
      ∀ e : Pkt E, (e.body.tag = 18 ∨ e.body.tag = 9) →
        decryptPka cr z readE depth sec pass ⟨none, [⟨.new, false, .pkesk ⟨3, kid, kp.pka, c⟩⟩, e]⟩ =
          decryptData cr z readE depth sym ⟨none, [⟨.new, false, .pkesk ⟨3, kid, kp.pka, c⟩⟩, e]⟩ sk := by
  obtain ⟨c, hc1, hc2⟩ := C26_session_key hkey hmod sym sk draws eph (by omega) hsmall hd
  have hpubeq : pub = ⟨.pub, sec.packets.map publicPkt⟩ := Out.ok.inj (hpub.symm.trans (getPublic_eq sec hsound))
  have hpm : pub.meaningful = .ok true := by
    obtain ⟨pub', h1, h2⟩ := C31_meaningful sec hsound hsec hmean
    rw [Out.ok.inj (hpub.symm.trans h1)]; exact h2
  have hts : t.Sound := hsound p (by rw [hpk]; simp) t hp
  have hkp : (publicPkt p).body.keyPart = some t.key.reread := by
    obtain ⟨f, g, b⟩ := p
    cases b <;> simp [Body.secretPart] at hp <;> subst hp <;> rfl
  have hrr := KeyPkt.samePublic_reread t.key
  have hfind : findEncryptKey none pub.packets = some t.key.reread := by
    rw [hpubeq, hpk, List.map_append, List.map_cons]
    refine findEncryptKey_first _ _ _ _ hkp (by rw [hrr.2.2.1]; exact hkey.canEncrypt) ?_ none
    intro q hq k' hk'
    obtain ⟨q, hq1, rfl⟩ := List.mem_map.mp hq
    -- a secret key has no public key packets in front
    have hqs : ∃ t', q.body.secretPart = some t' ∧ k' = t'.key.reread := by
      rw [KeyObj.meaningful, hsec, C30_meaningful_iff .sec 5 7 rfl] at hmean
      have hq5 : q.body.tag = 5 ∨ q.body.tag = 7 ∨ q.body.keyPart = none := by
        have hmem : q.body ∈ sec.packets.map (·.body) := List.mem_map.mpr ⟨q, by rw [hpk]; simp [hq1], rfl⟩
        obtain ⟨p', revs, users, gs, e1, hk5, hrev', hu, -, hg, -⟩ := hmean
        rw [e1] at hmem
        rcases List.mem_cons.mp hmem with h0 | h0
        · left; rw [h0]; exact hk5
        · rcases List.mem_append.mp h0 with h0 | h0
          · right; right
            rcases List.mem_append.mp h0 with h0 | h0
            · obtain ⟨s, hs, -⟩ := hrev' _ h0
              rw [hs]; rfl
            · obtain ⟨g, hg1, hg2⟩ := List.mem_flatten.mp h0
              obtain ⟨b, sigs, rfl, hb, hsig⟩ := (userBlock_iff g).mp (hu g hg1)
              rcases List.mem_cons.mp hg2 with h3 | h3
              · rcases hb with hb | hb
                · obtain ⟨u, hu'⟩ := userId_of_tag hb
                  rw [h3, hu']; rfl
                · obtain ⟨u, hu'⟩ := userAttr_of_tag hb
                  rw [h3, hu']; rfl
              · rcases hsig _ h3 with ⟨s, hs, -⟩ | ⟨-, s, hs, -⟩ <;> (rw [hs]; rfl)
          · obtain ⟨g, hg1, hg2⟩ := List.mem_flatten.mp h0
            obtain ⟨b, sigs, rfl, hb, hsig, -⟩ := hg g hg1
            rcases List.mem_cons.mp hg2 with h3 | h3
            · right; left; rw [h3]; exact hb
            · right; right
              obtain ⟨s, hs, -⟩ := hsig _ h3
              rw [hs]; rfl
      obtain ⟨f, g, b⟩ := q
      simp only at hq5
      cases b <;> first
        | (exfalso; simp [publicPkt, Body.keyPart] at hk'; done)
        | (exfalso; simp [Body.tag, Body.keyPart] at hq5; done)
        | exact ⟨_, rfl, (Option.some.inj hk').symm⟩
    obtain ⟨t', ht', rfl⟩ := hqs
    rw [(KeyPkt.samePublic_reread t'.key).2.2.1]
    exact (hbefore q hq1 t' ht').2
  set t1 : Tag1 := ⟨3, kid, t.key.pka, c⟩ with ht1
  obtain ⟨o, ho1, ho2⟩ := hc2 t1 rfl rfl
  refine ⟨t.key.reread, c, hpm, hfind, by rw [KeyPkt.keyid_reread, hkid], by rw [hrr.2.2.1, hrr.2.2.2.1]; exact hc1, fun e he => ?_⟩
  rw [show (⟨3, kid, t.key.reread.pka, c⟩ : Tag1) = t1 by rw [hrr.2.2.1]]
  have hm : Msg.meaningful (⟨none, [⟨.new, false, .pkesk t1⟩, e]⟩ : Msg E) = .ok true := by
    apply meaningful_of
    change Rfc.Derives .message [1, e.body.tag]
    rcases he with he | he <;> rw [he]
    · exact .msgEncrypted (.encKeys (v := [1]) (.eskFirst .eskPublic) .dataProtected)
    · exact .msgEncrypted (.encKeys (v := [1]) (.eskFirst .eskPublic) .dataPlain)
  have hfd : findDecryptKey cr t1.keyid none sec.packets = .ok (some t) := by
    rw [hpk]
    refine findDecryptKey_first before p after t hp hts hkey.canEncrypt hkid ?_ none
    intro q hq t' ht'
    have := hbefore q hq t' ht'
    exact ⟨hsound q (by rw [hpk]; simp [hq]) t' ht', this⟩
  obtain ⟨-, -, -, hprine⟩ := hkey.modulus
  rw [decryptPka, hmean, Out.ok_bind]
  simp only [Bool.not_true, Bool.false_eq_true, if_false]
  rw [hm, Out.ok_bind]
  simp only [Bool.not_true, Bool.false_eq_true, if_false, firstPkesk]
  rw [show canEncrypt t1.pka = true from hkey.canEncrypt]
  simp only [Bool.not_true, Bool.false_eq_true, if_false]
  rw [hfd, Out.ok_bind]
  simp only
  rw [hpri, Out.ok_bind, if_neg hprine, ho1, Out.ok_bind, ho2, Out.ok_bind]

/-- Public-key encryption to the public part of a secret key and decryption with that secret key and its passphrase give back
the literal data packet, for every session key, padding, exponent and prefix drawn. `before`, `p`, `after` are the packets of
the secret key; `p` is its first encryption-capable key packet. -/
theorem C26_message (hcr : cr.Ok) (rawE : E → Bytes) (readE : Bytes → Out E) (a : EncArgs) (hz : a.Undoes z) (n bs : Nat)
    (h : a.Usable n bs) (hf : a.Fits z) (sec pub : KeyObj E) (hsec : sec.kind = .sec) (hsound : sec.Sound)
    (hmean : sec.meaningful = .ok true) (hpub : sec.getPublic = .ok pub) (hrev : pub.revokeCheck = .ok .no)
    (before after : List (Pkt E)) (p : Pkt E) (t : Tag5) (hpk : sec.packets = before ++ p :: after)
    (hp : p.body.secretPart = some t)
    (hbefore : ∀ q ∈ before, ∀ t', q.body.secretPart = some t' → (∃ i, t'.key.keyid cr = .ok i) ∧ canEncrypt t'.key.pka = false)
    {kid : Bytes} (hkid : t.key.keyid cr = .ok kid) (pass : Bytes) (pri : List Nat)
    (hpri : t.decryptSecretKeys cr pass = .ok pri) (hkey : EncryptionKey t.key.pka t.key.mpi pri)
    {modulus : Nat} (hmod : t.key.mpi[0]? = some modulus) (hfit : n + 14 ≤ modulus.log2 / 8 + 1)
    (hsmall : modulus.log2 / 8 + 1 < 2 ^ 32) (sk draws rand : Bytes) (eph : Nat) (hsk : sk.length = n) (hr : rand.length = bs)
    (hd : modulus.log2 / 8 + 1 ≤ (draws.filter (· ≠ 0)).length) (depth : Nat) (hdep : 2 ≤ depth) :
    ∃ m r, encryptPka cr z rawE a pub sk draws eph rand = .ok m ∧ m.packets.map (·.body.tag) = [1, if a.mdc then 18 else 9] ∧
      decryptPka cr z readE depth sec pass m = .ok r ∧
      r.packets = [⟨.new, false, .literal ⟨0x62, a.filename, 0, a.data⟩⟩] ∧
      r.comp = if a.comp = 0 then none else some (.new, false, a.comp) := by
  obtain ⟨e, he1, he2, he3⟩ := data_roundtrip hcr rawE readE hz h hf rand sk hr hsk depth hdep
  obtain ⟨kp, c, hpm, hfind, hk, hw, hdec⟩ := pka_frame z readE a.sym sec pub hsec hsound hmean hpub before after p t hpk hp hbefore hkid pass pri hpri
    hkey hmod hfit hsmall sk draws eph hsk hd depth
  refine ⟨⟨none, [⟨.new, false, .pkesk ⟨3, kid, kp.pka, c⟩⟩, e]⟩, ⟨if a.comp = 0 then none else some (.new, false, a.comp), [EncArgs.literal a]⟩, ?_,
    ?_, ?_, rfl, rfl⟩
  · rw [encryptPka, h.valid]
    simp only [Bool.not_true, Bool.false_eq_true, if_false]
    rw [hpm, Out.ok_bind]
    simp only [Bool.not_true, Bool.false_eq_true, if_false]
    rw [hrev, Out.ok_bind]
    simp only [hfind]
    rw [hk, Out.ok_bind, h.key, mapAt, Out.ok_bind, if_neg (not_not.mpr hsk), hw, Out.ok_bind, he1, Out.ok_bind]
    rfl
  · simp only [List.map_cons, List.map_nil, he2]; rfl
  · rw [hdec e (by rw [he2]; cases a.mdc <;> simp)]
    exact he3 _ (Or.inl rfl)

/-- Encryption to a key that carries a revocation signature is refused: no message comes out, whatever was drawn. -/
theorem C44_encrypt_refuses (rawE : E → Bytes) (a : EncArgs) (k : KeyObj E) (key subkey : Nat)
    (ht : KeyObj.tags k.kind = some (key, subkey)) (hk : Rfc.TransferableKey true key subkey (k.packets.map (·.body)))
    (hr : CarriesRevocation k) (sk draws rand : Bytes) (eph : Nat) :
    encryptPka cr z rawE a k sk draws eph rand = .ok .empty := by
  have hm : k.meaningful = .ok true := C30_accepts_strict k.kind key subkey ht _ hk
  rw [encryptPka]
  split
  · rfl
  · rw [hm, Out.ok_bind]
    simp only [Bool.not_true, Bool.false_eq_true, if_false]
    rw [(C44_check_iff k key subkey ht hk).mpr hr, Out.ok_bind]
    rfl

end

theorem c26_primes : (mersenne 127).Prime ∧ (mersenne 107).Prime :=
  ⟨lucas_lehmer_sufficiency 127 (by simp) (by norm_num), lucas_lehmer_sufficiency 107 (by simp) (by norm_num)⟩

/-- A 234 bit RSA key. -/
def c26Pub : List Nat := [mersenne 127 * mersenne 107, 65537]
def c26Pri : List Nat := [15148310137902892372854494747293348982658810495089518801664574316425701, mersenne 107, mersenne 127, 2679389993546220750623801298200313985]

/-- The secret key packet, without passphrase. -/
def c26Tag5 : Tag5 :=
  ⟨⟨4, 1500000000, 1, c26Pub, 0⟩, 0, 0, none, [], writeMPIs c26Pri ++ be 2 (octetSum (writeMPIs c26Pri))⟩

def c26Sec : KeyObj Empty :=
  ⟨.sec, [⟨.new, false, .secretKey c26Tag5⟩, ⟨.new, false, .userId [97]⟩, ⟨.new, false, .sig (c30Sig 0x13)⟩]⟩

theorem c26_key : EncryptionKey 1 c26Pub c26Pri :=
  Or.inl ⟨Or.inl rfl, mersenne 127, mersenne 107, 65537, _, _, c26_primes.1, c26_primes.2, by decide +kernel, by decide +kernel,
    by decide +kernel, rfl, rfl, by decide +kernel⟩

/-- AES-128 without compression. -/
def c26Args : EncArgs := ⟨[97], [1, 2, 3], 7, 0, true, 8⟩

example : c26Args.Usable 16 16 ∧ c26Args.Fits demoZip ∧ c26Sec.Sound ∧ c26Sec.meaningful = .ok true ∧
    (∃ pub, c26Sec.getPublic = .ok pub ∧ pub.revokeCheck = .ok .no) ∧ c26Tag5.decryptSecretKeys demoCrypto [] = .ok c26Pri ∧
    (∃ kid, c26Tag5.key.keyid demoCrypto = .ok kid) ∧ (∃ n, c26Pub[0]? = some n ∧ 16 + 14 ≤ n.log2 / 8 + 1 ∧ n.log2 / 8 + 1 < 2 ^ 32) ∧
    30 ≤ ((List.replicate 30 (7 : UInt8)).filter (· ≠ 0)).length := by
  refine ⟨⟨rfl, rfl, by decide, rfl, by decide⟩, ⟨by simp [readableLen, c26Args], fun h => absurd rfl h⟩, ?_, by decide +kernel,
    ⟨⟨.pub, [⟨.new, false, .publicKey c26Tag5.key⟩, ⟨.new, false, .userId [97]⟩, ⟨.new, false, .sig (c30Sig 0x13)⟩]⟩,
      by decide +kernel, by decide +kernel⟩, by decide +kernel, ?_,
    ⟨mersenne 127 * mersenne 107, by decide +kernel, by decide +kernel, by decide +kernel⟩, by decide +kernel⟩
  · intro p hp t ht
    simp only [c26Sec, List.mem_cons, List.not_mem_nil, or_false] at hp
    rcases hp with rfl | rfl | rfl <;> simp [Body.secretPart] at ht
    subst ht
    exact ⟨Or.inl ⟨rfl, by decide +kernel, by decide +kernel, by decide +kernel, rfl⟩, by decide +kernel⟩
  · obtain ⟨f, -, -, -, h, -⟩ := C11_keyid demoCrypto demoCrypto_ok c26Tag5.key rfl
    exact ⟨_, h⟩

/-- Moduli of 11 octets up to 13 more than the session key cannot carry it: encryption throws. -/
theorem C26_small_modulus_throws (pka : UInt8) (pub : List Nat) (n : Nat) (hn : pub[0]? = some n) (sym : UInt8) (key draws : Bytes)
    (eph : Nat) (h11 : 11 ≤ n.log2 / 8 + 1) (hs : n.log2 / 8 + 1 < key.length + 14) (hsmall : n.log2 / 8 + 1 < 2 ^ 32) :
    wrapSessionKey pka pub draws eph sym key = .throw := by
  have hl := sessionOctets_length sym key
  have hr : rawtompi [] = .throw := by rw [rawtompi_eq]; simp
  have hv : vecAt pub 0 = .ok n := by unfold vecAt; rw [hn]
  have he : emeEncode draws (sessionOctets sym key) (modulusOctets n) = .ok [] := by
    rw [modulusOctets_eq]
    generalize n.log2 / 8 + 1 = k at *
    exact C18_too_long draws (sessionOctets sym key) k hsmall h11 (by rw [hl]; omega)
  unfold wrapSessionKey
  rw [hv, Out.ok_bind, he, Out.ok_bind, hr, Out.throw_bind]

end OpenPGP
