import Verif.Props.C59Write
import Verif.Props.C45
import Verif.Props.C26
import Verif.Model.CryptPka

/-!
# C59: the keys the library makes are valid
-/
namespace OpenPGP
open Rfc

variable {E : Type} {regexOk : Bytes → Bool} {validE : E → Out Status}

theorem KeyPair.counts {pka : UInt8} {pub pri : List Nat} (h : KeyPair pka pub pri) :
    (pka, pub.length) ∈ [((1 : UInt8), 2), (2, 2), (3, 2), (16, 3), (17, 4)] := by
  rcases h with ⟨h, p, q, e, d, rest, -, -, -, -, -, rfl, -⟩ | ⟨rfl, p, g, y, x, -, -, -, rfl, -⟩ | ⟨rfl, p, q, g, y, x, -, -, -, -, rfl, -⟩
  · rcases h with rfl | rfl | rfl <;> simp
  · simp
  · simp

theorem KeyPair.allowed {k : KeyPkt} {pri : List Nat} (h : KeyPair k.pka k.mpi pri) (h4 : k.version = 4) (mpis : Prop) : AllowedKey mpis k := by
  refine ⟨Or.inr ⟨h4, Or.inl ?_⟩, fun _ => h.counts⟩
  rcases h with ⟨h, -⟩ | ⟨h, -⟩ | ⟨h, -⟩
  · rcases h with h | h | h <;> rw [h] <;> decide
  · rw [h]; decide
  · rw [h]; decide

theorem secret_valid_of {t : Tag5} (mpis : Bool) (hk : AllowedKey mpis t.key) (hp : t.protectionWf) : t.valid mpis = .ok .success := by
  refine (C59_secret mpis t).mpr ⟨hk, ?_, ?_⟩
  · rintro h hn
    rcases hp with ⟨h1, -⟩ | ⟨-, ⟨s, h2, -⟩, -⟩ | ⟨-, h1, h2, -⟩
    · rw [h1] at h; revert h; decide
    · rw [h2] at hn; cases hn
    · rcases h with h | h
      · exact h1 h
      · exact h2 h
  · intro h
    rw [← blockLen_iff]
    rcases hp with ⟨h1, -⟩ | ⟨-, -, h2⟩ | ⟨-, -, -, -, -, h2⟩
    · exact absurd h1 h
    · exact h2
    · exact h2

theorem MadeBy.sig_valid {cr : Crypto} (hcr : cr.Ok) {rawE : E → Bytes} {key : KeyPkt} {now : Nat} {type hash : UInt8} {c : Signed E} {s : Tag2 E}
    (h : MadeBy cr rawE key now type hash c s) (h4 : key.version = 4) (ht : SigType type) (hp : key.pka = 1 ∨ key.pka = 17) (mpis : Bool) :
    s.valid regexOk validE mpis = .ok .success := by
  obtain ⟨i, -, ⟨⟨n, hn⟩, -⟩, hl⟩ := h.good
  have hdig := (hashLen_iff _ _).mp hn
  refine (C59_signature mpis s).mpr ⟨Or.inr h.version, h.type_eq ▸ ht, ?_, (hashNamed_iff _).mp (hashNamed_of_digest hdig), fun _ => ?_, ?_, fun _ => ?_⟩
  · rw [h.pka_eq]
    rcases hp with hp | hp <;> rw [hp] <;> decide
  · obtain ⟨kid, hk, -, hu⟩ := h.issuer
    rw [h.time, hu]
    intro x hx
    simp only [List.cons_append, List.nil_append, List.mem_cons, List.not_mem_nil, or_false] at hx
    rcases hx with rfl | rfl
    · trivial
    · obtain ⟨f, -, -, -, hkid, hk8⟩ := C11_keyid cr hcr key h4
      obtain rfl := Out.ok.inj (hk.symm.trans hkid)
      exact hk8
  · have hlen := hcr.hash_len s.hash n i hn
    rw [hl, List.length_take, hlen]
    simp only [Digest, List.mem_cons, List.not_mem_nil, or_false, Prod.mk.injEq] at hdig
    omega
  · rw [h.pka_eq, h.sizes.1]
    rcases hp with hp | hp <;> rw [hp] <;> simp

/-- **Exporting.** If the packets of a key are valid, so are those of its public part (the secret packets being ones the library can write and read back, as in C31). -/
theorem C59_public (mpis : Bool) (k pub : KeyObj E) (hs : k.Sound) (hk : ∀ p ∈ k.packets, p.body.valid regexOk validE mpis = .ok .success)
    (h : k.getPublic = .ok pub) : ∀ p ∈ pub.packets, p.body.valid regexOk validE mpis = .ok .success := by
  obtain rfl := Out.ok.inj (h.symm.trans (getPublic_eq k hs))
  intro p hp
  obtain ⟨q, hq, rfl⟩ := List.mem_map.mp hp
  have hv := hk q hq
  have sec : ∀ t : Tag5, t.valid mpis = .ok .success → t.key.reread.valid mpis = .success := by
    intro t ht
    have hk := ((C59_secret mpis t).mp ht).1
    rw [key_valid_iff]
    rw [KeyPkt.reread]
    split
    · exact ⟨hk.version, hk.count⟩
    · exact hk
  obtain ⟨f, a, b⟩ := q
  cases b <;> first
    | exact hv
    | (simp only [publicPkt, Body.valid] at hv ⊢; rw [sec _ hv])

/-- **Generated keys.** Every packet of a key that `generate_key` returns is valid, number of integers included, and so is every packet of its public part: writing
either with a status gives SUCCESS. -/
theorem C59_generated (cr : Crypto) (hcr : cr.Ok) (rawE : E → Bytes) (c : KeyConfig) (now : Nat) (hnow : now < 2 ^ 32) (r : KeyRand)
    (hr : r.Good c.pka c.bits) (nonces : List (List Nat)) (subs : List (KeyRand × List Nat))
    (hsubs : ∀ p ∈ c.subkeys.zip subs, p.2.1.Good p.1.pka p.1.bits) (k : KeyObj E)
    (h : generateKey cr rawE c now r nonces subs = .ok k) (mpis : Bool) :
    (∀ p ∈ k.packets, p.body.valid regexOk validE mpis = .ok .success) ∧
    ∃ pub, k.getPublic = .ok pub ∧ ∀ p ∈ pub.packets, p.body.valid regexOk validE mpis = .ok .success := by
  rcases generateKey_cases cr hcr rawE c now hnow r hr nonces subs hsubs k h with ⟨rfl, -⟩ | ⟨-, primary, pri, sigs, sk, hg⟩
  · exact ⟨by simp [noSecretKey], _, rfl, by simp⟩
  have hpair : KeyPair c.pka primary.key.mpi pri := by
    rcases hg.pair with ⟨h, h'⟩ | ⟨h, h'⟩
    · exact Or.inl ⟨Or.inl h, h'⟩
    · exact Or.inr (Or.inr ⟨h, h'⟩)
  have hpka : primary.key.pka = 1 ∨ primary.key.pka = 17 := by
    rw [hg.fields.2.2]
    rcases hg.pair with ⟨h, -⟩ | ⟨h, -⟩
    · exact Or.inl h
    · exact Or.inr h
  have all : ∀ p ∈ k.packets, p.body.valid regexOk validE mpis = .ok .success := by
    intro p hp
    rw [hg.packets] at hp
    rcases List.mem_cons.mp hp with rfl | hp
    · exact secret_valid_of mpis ((hg.fields.2.2 ▸ hpair : KeyPair primary.key.pka primary.key.mpi pri).allowed hg.fields.1 _) hg.protection
    rcases List.mem_append.mp hp with hp | hp
    · obtain ⟨q, hq1, hq⟩ := List.mem_flatMap.mp hp
      simp only [List.mem_cons, List.not_mem_nil, or_false] at hq
      rcases hq with rfl | rfl
      · rfl
      · obtain ⟨u, -, hm⟩ := forall₂_right hg.users q.2 (List.of_mem_zip hq1).2
        exact hm.sig_valid hcr hg.fields.1 (by decide) hpka mpis
    · obtain ⟨q, hq1, hq⟩ := List.mem_flatMap.mp hp
      simp only [List.mem_cons, List.not_mem_nil, or_false] at hq
      obtain ⟨c', -, hm⟩ := forall₂_right hg.subkeys q hq1
      rcases hq with rfl | rfl
      · exact secret_valid_of mpis ((hm.fields.2.2 ▸ hm.pair : KeyPair q.1.key.pka q.1.key.mpi q.2.2).allowed hm.fields.1 _) hm.protection
      · exact hm.binding.sig_valid hcr hg.fields.1 (by decide) hpka mpis
  exact ⟨all, _, getPublic_eq k hg.soundKey, C59_public mpis k _ hg.soundKey all (getPublic_eq k hg.soundKey)⟩

/-- A key with two user IDs, an ElGamal and a DSA subkey. -/
example : ∃ k, generateKey c45Crypto noE (c45Config (List.replicate 504 1)) 7 c45Rand [[3, 4, 5], [3, 4, 5]] c45Subs = .ok k ∧
    decide (k.packets.length = 9 ∧ ∀ p ∈ k.packets, p.body.valid (fun _ => true) (fun e => e.elim) true = .ok .success) = true :=
  ok_of_check (P := fun r : KeyObj Empty => decide (r.packets.length = 9 ∧ ∀ p ∈ r.packets, p.body.valid (fun _ => true) (fun e => e.elim) true = .ok .success)) (by decide +kernel)

/-! ## Messages encrypted to a key -/

theorem encryptData_valid {cr : Crypto} (hcr : cr.Ok) {z : Zip} {rawE : E → Bytes} {a : EncArgs} {rand key : Bytes} {n : Nat} (hkl : keyLen a.sym = some n)
    (hkeylen : key.length = n) {e : Pkt E} (he : encryptData cr z rawE a rand key = .ok (some e)) (mpis : Bool) :
    e.body.valid regexOk validE mpis = .ok .success := by
  have h0 : a.sym ≠ 0 := by rintro h0; rw [h0] at hkl; exact absurd hkl (by simp [keyLen])
  rw [encryptData] at he
  split at he
  · cases Out.ok.inj he
  obtain ⟨pl, -, he⟩ := Out.bind_eq_ok.mp he
  obtain ⟨bs, hbs, he⟩ := Out.bind_eq_ok.mp he
  split at he
  · cases he
  obtain ⟨pr, hpr, he⟩ := Out.bind_eq_ok.mp he
  obtain ⟨e, hee, he⟩ := Out.bind_eq_ok.mp he
  obtain rfl := Option.some.inj (Out.ok.inj he)
  rw [encPacket] at hee
  split at hee
  · obtain ⟨hh, -, hee⟩ := Out.bind_eq_ok.mp hee
    obtain ⟨mm, -, hee⟩ := Out.bind_eq_ok.mp hee
    obtain ⟨d, -, hee⟩ := Out.bind_eq_ok.mp hee
    obtain rfl := Out.ok.inj hee
    simp [Body.valid]
  · obtain ⟨d, hd, hee⟩ := Out.bind_eq_ok.mp hee
    obtain rfl := Out.ok.inj hee
    rw [usePgpCfbEncrypt, if_neg h0] at hd
    obtain ⟨c, hc, hd⟩ := Out.bind_eq_ok.mp hd
    have hck : c.Ok := by
      rw [symSetup] at hc
      split at hc
      swap
      · cases hc
      obtain ⟨c', hc1, hc2, -⟩ := hcr.cipher_ok a.sym n key hkl hkeylen
      obtain rfl := Out.ok.inj (hc1.symm.trans hc)
      exact hc2
    have := pgpCfbEncrypt_two hck hd
    simp only [Body.valid]
    rw [if_neg (by omega)]

/-- The last of the packets is not a key. -/
def EndsWithoutKey (l : List (Body E)) : Prop := ∀ x ∈ l.getLast?, x.keyPart = none

theorem EndsWithoutKey.append {a b : List (Body E)} (hb : EndsWithoutKey b) (ha : b = [] → EndsWithoutKey a) : EndsWithoutKey (a ++ b) := by
  intro x hx
  rw [List.getLast?_append] at hx
  cases hl : b.getLast? with
  | none =>
    rw [List.getLast?_eq_none_iff] at hl
    rw [hl] at hx
    exact ha hl x (by simpa using hx)
  | some y =>
    rw [hl] at hx
    obtain rfl : y = x := by simpa using hx
    exact hb y hl

theorem EndsWithoutKey.flatten {gs : List (List (Body E))} (h : ∀ g ∈ gs, EndsWithoutKey g) : EndsWithoutKey gs.flatten := by
  induction gs with
  | nil => intro x hx; simp at hx
  | cons g gs ih =>
    rw [List.flatten_cons]
    exact (ih fun g hg => h g (by simp [hg])).append fun _ => h g (by simp)

theorem endsWithoutKey_all {l : List (Body E)} (h : ∀ x ∈ l, x.keyPart = none) : EndsWithoutKey l := fun x hx => h x (List.mem_of_mem_getLast? hx)

theorem sigOf_keyPart {P : UInt8 → Prop} {b : Body E} (h : SigOf P b) : b.keyPart = none := by
  obtain ⟨s, rfl, -⟩ := h
  rfl

theorem meaningful_ends {k : KeyObj E} (h : k.meaningful = .ok true) : EndsWithoutKey (k.packets.map (·.body)) ∧ k.packets ≠ [] := by
  have hk : ∃ key subkey, KeyObj.tags k.kind = some (key, subkey) := by
    cases hk : k.kind with
    | pub => exact ⟨_, _, rfl⟩
    | sec => exact ⟨_, _, rfl⟩
    | other => rw [KeyObj.meaningful, hk] at h; cases Out.ok.inj h
  obtain ⟨key, subkey, ht⟩ := hk
  rw [KeyObj.meaningful, C30_meaningful_iff k.kind key subkey ht] at h
  obtain ⟨p, revs, users, subs, hl, -, hr, hu, ⟨g, hg, hid⟩, hs, -⟩ := h
  constructor
  swap
  · intro hn; rw [hn] at hl; cases hl
  rw [hl, ← List.singleton_append]
  have h1 : EndsWithoutKey subs.flatten := EndsWithoutKey.flatten fun g hg => by
    obtain ⟨k, sigs, rfl, -, hs1, s, hs2, -⟩ := hs g hg
    rw [← List.singleton_append]
    refine (endsWithoutKey_all fun x hx => sigOf_keyPart (hs1 x hx)).append fun h => ?_
    rw [h] at hs2
    cases hs2
  have h2 : EndsWithoutKey users.flatten := EndsWithoutKey.flatten fun g hg => by
    refine endsWithoutKey_all fun x hx => ?_
    cases hu g hg with
    | id u sigs h =>
      rcases List.mem_cons.mp hx with rfl | hx
      · rfl
      · rcases h x hx with h | h
        · exact sigOf_keyPart h
        · exact sigOf_keyPart h
    | «attribute» l sigs h =>
      rcases List.mem_cons.mp hx with rfl | hx
      · rfl
      · exact sigOf_keyPart (h x hx)
  have h3 : users.flatten ≠ [] := by
    obtain ⟨u, sigs, rfl⟩ := hid
    intro h
    have := List.flatten_eq_nil_iff.mp h _ hg
    cases this
  rw [List.append_assoc]
  have h4 : users.flatten ++ subs.flatten ≠ [] := fun h => h3 (List.append_eq_nil_iff.mp h).1
  exact ((h1.append fun _ => h2).append fun h => absurd h h4).append fun h => absurd (List.append_eq_nil_iff.mp h).2 h4

theorem findEncryptKey_sound {l : List (Pkt E)} (hne : l ≠ []) (h : EndsWithoutKey (l.map (·.body))) :
    ∀ {cur : Option KeyPkt} {kp : KeyPkt}, findEncryptKey cur l = some kp → canEncrypt kp.pka = true ∧ ∃ p ∈ l, p.body.keyPart = some kp := by
  induction l with
  | nil => exact absurd rfl hne
  | cons p ps ih =>
    intro cur kp hf
    rw [findEncryptKey] at hf
    by_cases hps : ps = []
    · subst hps
      have := h p.body (by simp)
      rw [this] at hf
      cases hf
    have hl : EndsWithoutKey (ps.map (·.body)) := by
      intro x hx
      apply h x
      rw [List.map_cons, List.getLast?_cons, Option.mem_def.mp hx]
      rfl
    split at hf
    · obtain ⟨h1, q, hq, h2⟩ := ih hps hl hf
      exact ⟨h1, q, by simp [hq], h2⟩
    · rename_i k hk
      split at hf
      · rename_i hc
        obtain rfl := Option.some.inj hf
        exact ⟨hc, p, by simp, hk⟩
      · obtain ⟨h1, q, hq, h2⟩ := ih hps hl hf
        exact ⟨h1, q, by simp [hq], h2⟩

theorem wrapSessionKey_count {pka : UInt8} {mpi c : List Nat} {draws key : Bytes} {eph : Nat} {sym : UInt8} (h : wrapSessionKey pka mpi draws eph sym key = .ok c)
    (hp : canEncrypt pka = true) : (pka, c.length) ∈ [((1 : UInt8), 1), (2, 1), (16, 2)] := by
  rw [wrapSessionKey] at h
  obtain ⟨n, -, h⟩ := Out.bind_eq_ok.mp h
  obtain ⟨em, -, h⟩ := Out.bind_eq_ok.mp h
  obtain ⟨m, -, h⟩ := Out.bind_eq_ok.mp h
  split at h
  · rename_i hp'
    obtain ⟨x, -, h⟩ := Out.bind_eq_ok.mp h
    obtain rfl := Out.ok.inj h
    rcases hp' with rfl | rfl <;> simp
  · split at h
    · rename_i hp'
      rw [elgamalEncrypt] at h
      obtain ⟨p, -, h⟩ := Out.bind_eq_ok.mp h
      split at h
      · cases h
      obtain ⟨g, -, h⟩ := Out.bind_eq_ok.mp h
      obtain ⟨r, -, h⟩ := Out.bind_eq_ok.mp h
      obtain ⟨y, -, h⟩ := Out.bind_eq_ok.mp h
      obtain ⟨s, -, h⟩ := Out.bind_eq_ok.mp h
      obtain rfl := Out.ok.inj h
      rw [hp']
      simp
    · rename_i h1 h2
      simp only [canEncrypt, Bool.or_eq_true, beq_iff_eq] at hp
      rcases hp with (hp | hp) | hp
      · exact absurd (Or.inl hp) h1
      · exact absurd (Or.inr hp) h1
      · exact absurd hp h2

/-- **Messages to a key.** The packets of a message encrypted to a key of version 4 are valid, number of integers included, whatever the options, the key and the random
numbers. -/
theorem C59_encrypted_to_key (cr : Crypto) (hcr : cr.Ok) (z : Zip) (rawE : E → Bytes) (a : EncArgs) (k : KeyObj E) (sk draws : Bytes) (eph : Nat) (rand : Bytes) (m : Msg E)
    (h4 : ∀ p ∈ k.packets, ∀ key, p.body.keyPart = some key → key.version = 4)
    (h : encryptPka cr z rawE a k sk draws eph rand = .ok m) (mpis : Bool) (p : Pkt E) (hp : p ∈ m.packets) :
    p.body.valid regexOk validE mpis = .ok .success := by
  rw [encryptPka] at h
  split at h
  · obtain rfl := Out.ok.inj h; exact absurd hp (by simp [Msg.empty])
  obtain ⟨good, hgood, h⟩ := Out.bind_eq_ok.mp h
  split at h
  · obtain rfl := Out.ok.inj h; exact absurd hp (by simp [Msg.empty])
  rename_i hg
  obtain rfl : good = true := by simpa using hg
  obtain ⟨hends, hne⟩ := meaningful_ends hgood
  obtain ⟨rc, -, h⟩ := Out.bind_eq_ok.mp h
  cases rc with
  | yes => obtain rfl := Out.ok.inj h; exact absurd hp (by simp [Msg.empty])
  | error => obtain rfl := Out.ok.inj h; exact absurd hp (by simp [Msg.empty])
  | no =>
    dsimp only at h
    split at h
    · obtain rfl := Out.ok.inj h; exact absurd hp (by simp [Msg.empty])
    rename_i kp hkp
    obtain ⟨hc, q, hq, hqk⟩ := findEncryptKey_sound hne hends hkp
    obtain ⟨kid, hkid, h⟩ := Out.bind_eq_ok.mp h
    obtain ⟨n, hn, h⟩ := Out.bind_eq_ok.mp h
    split at h
    · cases h
    rename_i hlen
    obtain ⟨c, hw, h⟩ := Out.bind_eq_ok.mp h
    obtain ⟨e, he, h⟩ := Out.bind_eq_ok.mp h
    cases e with
    | none => obtain rfl := Out.ok.inj h; exact absurd hp (by simp [Msg.empty])
    | some e =>
      obtain rfl := Out.ok.inj h
      have hkl : keyLen a.sym = some n := by
        cases hkl : keyLen a.sym with
        | none => rw [hkl] at hn; cases hn
        | some n' => rw [hkl] at hn; rw [Out.ok.inj hn]
      simp only [List.mem_cons, List.not_mem_nil, or_false] at hp
      rcases hp with rfl | rfl
      · refine (C59_valid_partial (good := fun _ => False) mpis (.pkesk _) trivial).mpr ?_
        obtain ⟨f, -, -, -, hkid', hk8⟩ := C11_keyid cr hcr kp (h4 q hq kp hqk)
        obtain rfl := Out.ok.inj (hkid.symm.trans hkid')
        refine ⟨rfl, hk8, ?_, fun _ => wrapSessionKey_count hw hc⟩
        simp only [canEncrypt, Bool.or_eq_true, beq_iff_eq] at hc
        simp only [List.mem_cons, List.not_mem_nil, or_false]
        tauto
      · exact encryptData_valid hcr hkl (not_not.mp hlen) he mpis

/-- A message to a 234 bit RSA key. -/
example : ∃ m, encryptPka demoCrypto demoZip noE c26Args ⟨.pub, [⟨.new, false, .publicKey c26Tag5.key⟩, ⟨.new, false, .userId [97]⟩, ⟨.new, false, .sig (c30Sig 0x13)⟩]⟩
      (List.replicate 16 5) (List.replicate 30 7) 3 (List.replicate 16 9) = .ok m ∧
    decide (m.packets.length = 2 ∧ ∀ p ∈ m.packets, p.body.valid (fun _ => true) (fun e => e.elim) true = .ok .success) = true :=
  ok_of_check (P := fun r : Msg Empty => decide (r.packets.length = 2 ∧ ∀ p ∈ r.packets, p.body.valid (fun _ => true) (fun e => e.elim) true = .ok .success)) (by decide +kernel)

end OpenPGP
