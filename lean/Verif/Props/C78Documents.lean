import Verif.Props.C78
import Verif.Props.C37

/-!
# C78 for documents

The equation of C37, which has the library's length of the encoding, against the RFC's, and what that means for signatures of documents.
-/
namespace OpenPGP
open Rfc
variable {E : Type}

/-- A value that satisfies the equation of C37. -/
theorem verify_of_rsaHolds {hash pka : UInt8} {digest : Bytes} {n e s len : Nat} (hpka : pka = 1 ∨ pka = 3) (hl : hashLen hash = some len) (hd : digest.length = len)
    (hbig : n.size < 2 ^ 35) (h : RsaHolds hash digest [n, e] [s]) : n % 2 = 1 ∧ verifyPka digest hash pka [n, e] [s] = .ok .yes := by
  obtain ⟨n', e', s', der, h1, h2, h3, hp, hodd, hroom, he⟩ := h
  cases h1; cases h2; cases h3
  have hn0 : n ≠ 0 := by omega
  have hb : n.log2 + 1 = n.size := bitsize_size hn0
  rw [hb] at hroom he
  have heq : encodedDigest der digest (n.size / 8) = rfcEncoded (der ++ digest) (n.size / 8) := by
    rw [encodedDigest, rfcEncoded, List.length_append, show n.size / 8 - (der.length + digest.length) - 3 = n.size / 8 - 3 - der.length - digest.length by omega]
    simp
  have hem : emsa hash digest (bitsize n / 8) = .ok (rfcEncoded (der ++ digest) (n.size / 8)) := by
    rw [bitsize_size hn0]; exact emsa_rfc hl hd hp (by omega) (by omega)
  refine ⟨hodd, ?_⟩
  rw [verifyPka_rsa hpka hodd hem (by simp [rfcEncoded]), decide_eq_true (by rw [he, heq])]; rfl

/-- A signature of a document that `Verify::detached_signature` accepts with an RSA key of a size that is no multiple of eight is good for nobody else: its value is no good signature of RFC 3447 of the hash
of what was signed. -/
theorem C78_document_fails (cr : Crypto) (hcr : cr.Ok) (rawE : E → Bytes) (k : KeyObj E) (hk : k.Sized) (data : Bytes) (sig : PgpObj (Pkt E)) (s : Tag2 E) (hs : IsDetached sig s)
    (hv : verifyDetached cr rawE k data sig = .ok .yes) (kp : KeyPkt) (hkp : SigningKey k kp) (n e v : Nat) (hn : kp.mpi = [n, e]) (h8 : n.size % 8 ≠ 0) (hm : s.mpi = [v]) :
    ∃ i, Hashed rawE data s i ∧ ¬ RsaGood s.hash (cr.hash s.hash i) n e (v % n) := by
  obtain ⟨s', i, hs', hi, hg⟩ := (C37_detached cr hcr rawE k hk data sig).mp hv
  obtain rfl : s' = s := by
    obtain ⟨-, p, hp, hb⟩ := hs
    obtain ⟨-, p', hp', hb'⟩ := hs'
    rw [hp] at hp'
    cases hp'
    rw [hb] at hb'
    exact (Body.sig.inj hb').symm
  obtain ⟨hmean, -, -, kp', hkp', ⟨len, hl⟩, hholds⟩ := hg
  obtain rfl : kp' = kp := SigningKey.unique hmean hkp' hkp
  refine ⟨i, hi, fun hgood => ?_⟩
  have hd : (cr.hash s'.hash i).length = len := hcr.hash_len _ _ _ hl
  have hbig : n.size < 2 ^ 35 := by
    obtain ⟨before, p, after, hpk, hpart, -⟩ := hkp
    have := hk p (by rw [hpk]; simp) kp' hpart n (by rw [hn]; simp)
    rcases Nat.eq_zero_or_pos n with rfl | h0
    · simp
    · rw [← bitsize_size (by omega), bitsize]; omega
  rw [hn, hm] at hholds
  rcases hholds with ⟨hpka, hr⟩ | ⟨-, p, q, g, y, r, s, w, h1, h2, h3, -⟩
  · obtain ⟨hodd, hyes⟩ := verify_of_rsaHolds hpka hl hd hbig hr
    exact C78_rsa_never_both_fails hpka hodd hl hd h8 hbig ⟨hyes, hgood⟩
  · cases h3

/-! ### Such a key -/

def c78Tag5 : Tag5 :=
  ⟨⟨4, 1500000000, 1, c78Pub, 0⟩, 0, 0, none, [], writeMPIs c78Pri ++ be 2 (octetSum (writeMPIs c78Pri))⟩

def c78Args : SignArgs Empty :=
  ⟨⟨.sec, [⟨.new, false, .secretKey c78Tag5⟩, ⟨.new, false, .userId [97]⟩, ⟨.new, false, .sig (c30Sig 0x13)⟩]⟩, [], 4, 8⟩

theorem c78_parts : ∀ p ∈ c78Args.pri.packets, p.body = .secretKey c78Tag5 ∨ (p.body.secretPart = none ∧ p.body.keyPart = none) := by
  simp [c78Args, Body.secretPart, Body.keyPart]

theorem c78_canSign : CanSign demoCrypto c78Args [] c78Tag5 c78Pri where
  sec := rfl
  meaningful := by decide +kernel
  sound := by
    intro p hp t ht
    rcases c78_parts p hp with h | h
    · rw [h] at ht
      obtain rfl := Option.some.inj ht
      exact ⟨Or.inl ⟨rfl, by decide +kernel, by decide +kernel, by decide +kernel, rfl⟩, by decide +kernel⟩
    · rw [h.1] at ht
      cases ht
  sized := by
    intro p hp kp hk n hn
    rcases c78_parts p hp with h | h
    · rw [h] at hk
      obtain rfl := Option.some.inj hk
      have hall : ∀ n ∈ c78Pub, n.log2 < 2 ^ 32 := by decide +kernel
      exact hall n hn
    · rw [h.2] at hk
      cases hk
  packets := ⟨_, _, rfl, rfl⟩
  first := by simp
  opens := by decide +kernel
  pair := Or.inl ⟨rfl, c78_key⟩

/-- Its detached signatures verify with its public key, and so the theorem speaks of them. -/
example (now : Nat) (data : Bytes) : ∃ pub d, c78Args.pri.getPublic = .ok pub ∧ signDetached demoCrypto (fun e => nomatch e) c78Args now [] data = .ok d ∧
    verifyDetached demoCrypto (fun e => nomatch e) pub data d = .ok .yes ∧ Nat.size (mersenne 521 * mersenne 61) % 8 ≠ 0 := by
  obtain ⟨pub, h1, h2, -⟩ := C36_rsa_signs demoCrypto demoCrypto_ok demoZip (fun e => nomatch e) (fun _ => .throw) 0 0 c78Args c78Tag5 c78Pri c78_canSign rfl rfl rfl
    ⟨_, _, _, rfl, rfl, rfl, by decide +kernel⟩ now [] data [] 0
  obtain ⟨d, h3, h4⟩ := h2 (by decide +kernel)
  exact ⟨pub, d, h1, h3, h4, by rw [c78_582]; decide⟩

end OpenPGP
