import Verif.Model.Des
import Verif.Lemmas.Aes

/-! `DES::run` with the reversed keys undoes `DES::run`. -/
namespace OpenPGP

/-- Feistel ciphers: a round with the halves exchanged before and after undoes the round. -/
theorem feistel_undo {σ β : Type} (f : σ → β → σ) (sw : σ → σ) (h2 : ∀ x, sw (sw x) = x)
    (h : ∀ x k, sw (f (sw (f x k)) k) = x) (L : List β) (x : σ) :
    L.reverse.foldl f (sw (L.foldl f x)) = sw x := by
  have hom := foldl_hom' sw (fun z k => sw (f (sw z) k)) f (fun z k => by simp [h2]) L.reverse (L.foldl f x)
  rw [← hom, foldl_undo f (fun z k => sw (f (sw z) k)) h]

theorem pickBits_append {n : Nat} (T : List Nat) (i : Nat) (s : BitVec n) :
    pickBits (T ++ [i]) s = 2 * pickBits T s + (s.getMsbD (i - 1)).toNat := by
  simp [pickBits]

theorem pickBits_lt {n : Nat} (s : BitVec n) (T : List Nat) : pickBits T s < 2 ^ T.length := by
  induction T using List.reverseRecOn with
  | nil => simp [pickBits]
  | append_singleton T i ih =>
    rw [pickBits_append, List.length_append, List.length_singleton, pow_succ]
    have := Bool.toNat_lt (s.getMsbD (i - 1))
    omega

theorem pickBits_testBit {n : Nat} (s : BitVec n) (T : List Nat) : ∀ y, y < T.length →
    (pickBits T s).testBit (T.length - 1 - y) = s.getMsbD (T.getD y 0 - 1) := by
  induction T using List.reverseRecOn with
  | nil => intro y hy; simp at hy
  | append_singleton T i ih =>
    intro y hy
    rw [List.length_append, List.length_singleton] at hy ⊢
    rw [pickBits_append]
    by_cases h : y = T.length
    · subst h
      have e : T.length + 1 - 1 - T.length = 0 := by omega
      rw [e, List.getD_append_right _ _ _ _ (le_refl _), Nat.sub_self]
      simp only [List.getD_cons_zero]
      rw [Nat.testBit_zero]
      cases s.getMsbD (i - 1) <;> simp
    · have e : T.length + 1 - 1 - y = (T.length - 1 - y) + 1 := by omega
      rw [e, Nat.testBit_succ, List.getD_append _ _ _ _ (by omega), ← ih y (by omega)]
      congr 1
      have := Bool.toNat_lt (s.getMsbD (i - 1))
      omega

theorem getMsbD_pick {n m : Nat} (s : BitVec n) (T : List Nat) (hm : T.length = m) (y : Nat) (hy : y < m) :
    (BitVec.ofNat m (pickBits T s)).getMsbD y = s.getMsbD (T.getD y 0 - 1) := by
  subst hm
  rw [BitVec.getMsbD, BitVec.getLsbD_ofNat, ← pickBits_testBit s T y hy]
  simp only [hy, decide_true, Bool.true_and]
  have : T.length - 1 - y < T.length := by omega
  simp [this]

/-- Choosing by `U` and then by `T` returns every character to its place. -/
theorem pick_pick {n : Nat} (T U : List Nat) (hT : T.length = n) (hU : U.length = n)
    (h : ∀ y < n, T.getD y 0 - 1 < n ∧ U.getD (T.getD y 0 - 1) 0 - 1 = y) (D : BitVec n) :
    BitVec.ofNat n (pickBits T (BitVec.ofNat n (pickBits U D))) = D := by
  apply BitVec.eq_of_getMsbD_eq
  intro y hy
  rw [getMsbD_pick _ T hT y hy, getMsbD_pick _ U hU _ (h y hy).1, (h y hy).2]

theorem desIP_INVIP (D : BitVec 64) : BitVec.ofNat 64 (pickBits desIP (BitVec.ofNat 64 (pickBits desINVIP D))) = D :=
  pick_pick desIP desINVIP rfl rfl (by decide +kernel) D

theorem desINVIP_IP (D : BitVec 64) : BitVec.ofNat 64 (pickBits desINVIP (BitVec.ofNat 64 (pickBits desIP D))) = D :=
  pick_pick desINVIP desIP rfl rfl (by decide +kernel) D

theorem hex8 (v : Nat) : unhexlify (makehex v 16 false) = .ok (be 8 v) := unhexlify_makehex _ 8 _

theorem desBlock_ok (keys : List (BitVec 64)) (b : Bytes) : ∃ e, desBlock keys b = .ok e ∧ e.length = 8 :=
  ⟨_, hex8 _, by simp⟩

theorem append_hi (a b : BitVec 32) : (a ++ b).extractLsb' 32 32 = a := by
  apply BitVec.eq_of_getLsbD_eq
  intro i hi
  have h1 : ¬ 32 + i < 32 := by omega
  have h2 : 32 + i - 32 = i := by omega
  rw [BitVec.getLsbD_extractLsb', BitVec.getLsbD_append, if_neg h1, h2]
  simp [hi]

theorem append_lo (a b : BitVec 32) : (a ++ b).extractLsb' 0 32 = b := by
  apply BitVec.eq_of_getLsbD_eq
  intro i hi
  simp only [BitVec.getLsbD_extractLsb', BitVec.getLsbD_append, Nat.zero_add, hi, decide_true, Bool.true_and, if_true]

theorem desBlock_undo (keys : List (BitVec 64)) (b e : Bytes) (hb : b.length = 8) (h : desBlock keys b = .ok e) :
    desBlock keys.reverse e = .ok b := by
  unfold desBlock at h
  simp only [hex8] at h
  obtain rfl := Out.ok.inj h
  unfold desBlock
  simp only [hex8]
  have hn : ∀ D : BitVec 64, num (be 8 (pickBits desINVIP D)) = pickBits desINVIP D := by
    intro D
    have := pickBits_lt D desINVIP
    rw [num_be, Nat.mod_eq_of_lt]
    exact this
  rw [hn, desIP_INVIP]
  set A : BitVec 64 := BitVec.ofNat 64 (pickBits desIP (BitVec.ofNat 64 (num b))) with hA
  have key := feistel_undo desRound Prod.swap (fun x => by cases x; rfl)
    (by
      rintro ⟨l, r⟩ k
      simp only [desRound, Prod.swap, xor_xor_self])
    keys (A.extractLsb' 32 32, A.extractLsb' 0 32)
  set d := keys.foldl desRound (A.extractLsb' 32 32, A.extractLsb' 0 32) with hd
  have e1 : (d.2 ++ d.1).extractLsb' 32 32 = d.2 := append_hi d.2 d.1
  have e2 : (d.2 ++ d.1).extractLsb' 0 32 = d.1 := append_lo d.2 d.1
  have e3 : ((d.2 ++ d.1 : BitVec 64).extractLsb' 32 32, (d.2 ++ d.1 : BitVec 64).extractLsb' 0 32) = d.swap := by
    exact Prod.ext e1 e2
  rw [e3, key]
  have e4 : (Prod.swap (A.extractLsb' 32 32, A.extractLsb' 0 32)).2 ++
      (Prod.swap (A.extractLsb' 32 32, A.extractLsb' 0 32)).1 = A := by
    apply BitVec.eq_of_getLsbD_eq
    intro i hi
    simp only [Prod.swap, BitVec.getLsbD_append, BitVec.getLsbD_extractLsb']
    by_cases h : i < 32
    · simp [h]
    · have h1 : i - 32 < 32 := by omega
      have h2 : 32 + (i - 32) = i := by omega
      simp [h, h1, h2]
  have e5 : pickBits desINVIP A = num b := by
    have h1 := desINVIP_IP (BitVec.ofNat 64 (num b))
    rw [← hA] at h1
    have h2 := congrArg BitVec.toNat h1
    rw [BitVec.toNat_ofNat, BitVec.toNat_ofNat, Nat.mod_eq_of_lt, Nat.mod_eq_of_lt] at h2
    · exact h2
    · have := num_lt b
      rw [hb] at this
      exact this
    · exact pickBits_lt A desINVIP
  have e6 : pickBits desINVIP ((Prod.swap (A.extractLsb' 32 32, A.extractLsb' 0 32)).2 ++
      (Prod.swap (A.extractLsb' 32 32, A.extractLsb' 0 32)).1) = num b := (congrArg (pickBits desINVIP) e4).trans e5
  rw [e6]
  have := be_num b
  rw [hb] at this
  rw [this]

theorem desSetkey_ok (KEY : Bytes) (h : KEY.length = 8) : ∃ o, des.make KEY = .ok o ∧ o.keyset = true := by
  simp only [SymCipher.make, des, desSetkey]
  rw [if_neg (by simp), if_neg (by simp [h])]
  exact ⟨_, rfl, rfl⟩

theorem desEncrypt_eq {o : DesObj} (hs : o.keyset = true) {b : Bytes} (hb : b.length = 8) :
    des.encrypt o b = (o, desBlock o.keys b) := by
  simp [des, desRun, hs, hb]

theorem desDecrypt_eq {o : DesObj} (hs : o.keyset = true) {b : Bytes} (hb : b.length = 8) :
    des.decrypt o b = (o, desBlock o.keys.reverse b) := by
  obtain ⟨e, he, _⟩ := desBlock_ok o.keys.reverse b
  simp only [des, desDecrypt, desRun, hs, hb, he, Bool.not_true, Bool.false_eq_true, if_false, ne_eq,
    not_true_eq_false, List.reverse_reverse]
  cases o; subst hs; rfl

theorem des_inverts (KEY : Bytes) (h : KEY.length = 8) : des.InvertsWith KEY := by
  obtain ⟨o, ho, hs⟩ := desSetkey_ok KEY h
  refine ⟨o, ho, ?_, ?_⟩
  · intro b hb
    have hb : b.length = 8 := by simp only [des] at hb; omega
    obtain ⟨e, he, hl⟩ := desBlock_ok o.keys b
    obtain ⟨d, hd, hl'⟩ := desBlock_ok o.keys.reverse b
    have u1 := desBlock_undo _ _ _ hb he
    have u2 := desBlock_undo _ _ _ hb hd
    rw [List.reverse_reverse] at u2
    refine ⟨⟨e, ?_, by omega, ?_, ?_⟩, ⟨d, ?_, by omega, ?_⟩⟩
    · rw [desEncrypt_eq hs hb, he]
    · rw [desEncrypt_eq hs hb, desDecrypt_eq hs hl, u1]
    · rw [desDecrypt_eq hs hl, u1]
    · rw [desDecrypt_eq hs hb, hd]
    · rw [desEncrypt_eq hs hl', u2]
  · intro b hb
    have hb : b.length ≠ 8 := by simp only [des] at hb; omega
    simp [des, desRun, desDecrypt, hs, hb]

/-- Histories of blocks leave an object alone. -/
theorem noMemoryOnBlocks_of_fixed {S : Type} (c : SymCipher S) (o : S)
    (he : ∀ b : Bytes, 8 * b.length = c.blocksize → (c.encrypt o b).1 = o)
    (hd : ∀ b : Bytes, 8 * b.length = c.blocksize → (c.decrypt o b).1 = o) (calls : List CipherCall)
    (h : ∀ k ∈ calls, match k with
      | .encrypt b => 8 * b.length = c.blocksize
      | .decrypt b => 8 * b.length = c.blocksize) :
    c.run calls o = calls.map fun k => (c.call o k).2 := by
  induction calls with
  | nil => rfl
  | cons k ks ih =>
    have h1 : (c.call o k).1 = o := by
      have := h k (by simp)
      cases k with
      | encrypt b => exact he b this
      | decrypt b => exact hd b this
    simp only [SymCipher.run, h1, List.map_cons]
    rw [ih (fun k hk => h k (by simp [hk]))]

theorem des_noMemoryOnBlocks (KEY : Bytes) (h : KEY.length = 8) : des.NoMemoryOnBlocksWith KEY := by
  obtain ⟨o, ho, hs⟩ := desSetkey_ok KEY h
  refine ⟨o, ho, noMemoryOnBlocks_of_fixed des o ?_ ?_⟩
  · intro b hb
    rw [desEncrypt_eq hs (by simp only [des] at hb; omega)]
  · intro b hb
    rw [desDecrypt_eq hs (by simp only [des] at hb; omega)]

/-! ## Triple-DES -/

theorem tdesSetkey_ok (KEY : Bytes) (h : 24 ≤ KEY.length) :
    tdes.make KEY = .ok ⟨true, KEY.take 8, (KEY.drop 8).take 8, (KEY.drop 16).take 8, false, true, false⟩ := by
  have h1 : ¬ KEY.length < 0 := by omega
  have h2 : ¬ KEY.length < 8 := by omega
  have h3 : ¬ KEY.length < 16 := by omega
  have l1 : (KEY.take 8).length = 8 := by simp; omega
  have l2 : ((KEY.drop 8).take 8).length = 8 := by simp; omega
  have l3 : ((KEY.drop 16).take 8).length = 8 := by simp; omega
  simp only [SymCipher.make, tdes, substr, h1, h2, h3, if_false, Out.ok_bind, tdesSetkey, List.drop_zero, l1, l2, l3,
    Bool.false_eq_true]
  rfl

/-- The object for a key of 24 octets (longer keys are cut). -/
def tdesObjOf (KEY : Bytes) : TdesObj :=
  ⟨true, KEY.take 8, (KEY.drop 8).take 8, (KEY.drop 16).take 8, false, true, false⟩

theorem tdesRun_ok (o : TdesObj) (hs : o.keyset = true) (b k : Bytes) (hb : b.length = 8) (hk : k.length = 8) (m : Bool) :
    ∃ e, tdesRun o b k m = .ok e ∧ e.length = 8 ∧ tdesRun o e k (!m) = .ok b := by
  obtain ⟨d, hd, hs'⟩ := desSetkey_ok k hk
  cases m with
  | false =>
    obtain ⟨e, he, hl⟩ := desBlock_ok d.keys b
    have u := desBlock_undo _ _ _ hb he
    refine ⟨e, ?_, hl, ?_⟩
    · simp [tdesRun, hs, hb, hd, desEncrypt_eq hs' hb, he, Out.ok_bind]
    · simp [tdesRun, hs, hl, hd, desDecrypt_eq hs' hl, u, Out.ok_bind]
  | true =>
    obtain ⟨e, he, hl⟩ := desBlock_ok d.keys.reverse b
    have u := desBlock_undo _ _ _ hb he
    rw [List.reverse_reverse] at u
    refine ⟨e, ?_, hl, ?_⟩
    · simp [tdesRun, hs, hb, hd, desDecrypt_eq hs' hb, he, Out.ok_bind]
    · simp [tdesRun, hs, hl, hd, desEncrypt_eq hs' hl, u, Out.ok_bind]

theorem tdes_wrong_size (o : TdesObj) (b : Bytes) (hb : b.length ≠ 8) :
    (tdes.encrypt o b).2 = .throw ∧ (tdes.decrypt o b).2 = .throw := by
  have : ∀ k m, tdesRun o b k m = .throw := by
    intro k m
    unfold tdesRun
    split
    · rfl
    · first | rw [if_pos hb] | rfl
  simp only [tdes, tdesEncrypt, tdesDecrypt, this]
  exact ⟨rfl, rfl⟩

/-- When the first and the third key are equal, decryption in the code's order of the keys is the inverse. -/
theorem tdes_inverts_two_key (KEY : Bytes) (h : 24 ≤ KEY.length) (h13 : KEY.take 8 = (KEY.drop 16).take 8) :
    tdes.InvertsWith KEY := by
  refine ⟨tdesObjOf KEY, tdesSetkey_ok KEY h, ?_, ?_⟩
  · intro b hb
    have hb : b.length = 8 := by simp only [tdes] at hb; omega
    have hs : (tdesObjOf KEY).keyset = true := rfl
    have l1 : (KEY.take 8).length = 8 := by simp; omega
    have l2 : ((KEY.drop 8).take 8).length = 8 := by simp; omega
    obtain ⟨x, x1, x2, x3⟩ := tdesRun_ok (tdesObjOf KEY) hs b (KEY.take 8) hb l1 false
    obtain ⟨y, y1, y2, y3⟩ := tdesRun_ok (tdesObjOf KEY) hs x ((KEY.drop 8).take 8) x2 l2 true
    obtain ⟨z, z1, z2, z3⟩ := tdesRun_ok (tdesObjOf KEY) hs y (KEY.take 8) y2 l1 false
    obtain ⟨u, u1, u2, u3⟩ := tdesRun_ok (tdesObjOf KEY) hs b (KEY.take 8) hb l1 true
    obtain ⟨v, v1, v2, v3⟩ := tdesRun_ok (tdesObjOf KEY) hs u ((KEY.drop 8).take 8) u2 l2 false
    obtain ⟨w, w1, w2, w3⟩ := tdesRun_ok (tdesObjOf KEY) hs v (KEY.take 8) v2 l1 true
    have k3 : (tdesObjOf KEY).k3 = KEY.take 8 := h13.symm
    have hdec : (tdes.decrypt (tdesObjOf KEY) z).2 = .ok b := by
      simp only [tdes, tdesDecrypt, k3, show (tdesObjOf KEY).k1 = KEY.take 8 from rfl,
        show (tdesObjOf KEY).k2 = (KEY.drop 8).take 8 from rfl, show (tdesObjOf KEY).m1 = false from rfl,
        show (tdesObjOf KEY).m2 = true from rfl, show (tdesObjOf KEY).m3 = false from rfl, z3, Out.ok_bind, y3, x3]
    refine ⟨⟨z, ?_, by omega, hdec, hdec⟩, ⟨w, ?_, by omega, ?_⟩⟩
    · simp only [tdes, tdesEncrypt, k3, show (tdesObjOf KEY).k1 = KEY.take 8 from rfl,
        show (tdesObjOf KEY).k2 = (KEY.drop 8).take 8 from rfl, show (tdesObjOf KEY).m1 = false from rfl,
        show (tdesObjOf KEY).m2 = true from rfl, show (tdesObjOf KEY).m3 = false from rfl, x1, Out.ok_bind, y1, z1]
    · simp only [tdes, tdesDecrypt, k3, show (tdesObjOf KEY).k1 = KEY.take 8 from rfl,
        show (tdesObjOf KEY).k2 = (KEY.drop 8).take 8 from rfl, show (tdesObjOf KEY).m1 = false from rfl,
        show (tdesObjOf KEY).m2 = true from rfl, show (tdesObjOf KEY).m3 = false from rfl, Bool.not_false, Bool.not_true,
        u1, Out.ok_bind, v1, w1]
    · simp only [tdes, tdesEncrypt, k3, show (tdesObjOf KEY).k1 = KEY.take 8 from rfl,
        show (tdesObjOf KEY).k2 = (KEY.drop 8).take 8 from rfl, show (tdesObjOf KEY).m1 = false from rfl,
        show (tdesObjOf KEY).m2 = true from rfl, show (tdesObjOf KEY).m3 = false from rfl]
      simp only [Bool.not_true, Bool.not_false] at w3 v3 u3
      rw [w3, Out.ok_bind, v3, Out.ok_bind, u3]
  · intro b hb
    exact tdes_wrong_size _ b (by simp only [tdes] at hb; omega)

theorem tdes_noMemory (KEY : Bytes) (h : 24 ≤ KEY.length) : tdes.NoMemoryWith KEY :=
  ⟨_, tdesSetkey_ok KEY h, noMemory_of_fixed tdes _ (by rintro (b | b) <;> rfl)⟩

end OpenPGP
