import Verif.Props.C40
import Verif.Model.Sym

/-!
# C50: cipher objects insist on exactly one key of a legal size
-/
namespace OpenPGP

/-- The cipher classes of the library. -/
def cipherClasses : List (Σ S : Type, SymCipher S) :=
  [⟨_, aes⟩, ⟨_, des⟩, ⟨_, tdes⟩, ⟨_, cast128⟩, ⟨_, twofish⟩, ⟨_, idea⟩, ⟨_, camellia⟩, ⟨_, blowfish⟩]

/-- All classes but Blowfish: an object without a key encrypts nothing and decrypts nothing, whatever it is given. -/
theorem C50_unkeyed_throws (c : Σ S : Type, SymCipher S) (hc : c ∈ cipherClasses.take 7) (b : Bytes) :
    (c.2.encrypt c.2.fresh b).2 = .throw ∧ (c.2.decrypt c.2.fresh b).2 = .throw := by
  simp only [cipherClasses, List.take_succ_cons, List.take_zero, List.mem_cons, List.not_mem_nil, or_false] at hc
  rcases hc with rfl | rfl | rfl | rfl | rfl | rfl | rfl <;> exact ⟨rfl, rfl⟩

/-- Blowfish: the check `!keyset ^ settingkey` is false for a new object (Blowfish.cpp:8), so a block given to an object
without a key is encrypted with tables of zeros: the result is the block with its halves exchanged. -/
theorem C50_blowfish_unkeyed_fails (b : Bytes) (hb : b.length = 8) :
    (blowfish.encrypt blowfish.fresh b).2 = .ok (b.drop 4 ++ b.take 4) := by
  have hr : BfObj.Ready blowfish.fresh := ⟨rfl, rfl⟩
  have e : (blowfish.encrypt blowfish.fresh b).2 = bfBlock (List.replicate 18 0) (List.replicate 2048 0) b :=
    bfRun_ready hr hb
  have hf : ∀ w, bfF (List.replicate 2048 0) w = 0 := by
    intro w
    have g : ∀ i, (List.replicate 2048 (0 : BitVec 32)).getD i 0 = 0 := by
      intro i
      rw [List.getD_eq_getElem?_getD, List.getElem?_replicate]
      split <;> rfl
    simp only [bfF, g]
    rfl
  have x0 : ∀ w : BitVec 32, w ^^^ 0 = w := fun w => by simp
  have hs : ∀ d, bfStep (List.replicate 2048 0) (bfStep (List.replicate 2048 0) d 0) 0 = d := by
    rintro ⟨l, r⟩
    simp only [bfStep, hf, x0]
  have hr18 : (List.replicate 18 (0 : BitVec 32)).take 16 =
      [0, 0, 0, 0, 0, 0, 0, 0, 0, 0, 0, 0, 0, 0, 0, 0] := rfl
  have g17 : (List.replicate 18 (0 : BitVec 32)).getD 17 0 = 0 := rfl
  have g16 : (List.replicate 18 (0 : BitVec 32)).getD 16 0 = 0 := rfl
  rw [e, bfBlock_eq _ _ (by rfl), hr18, g17, g16]
  simp only [List.foldl_cons, List.foldl_nil, hs, x0]
  rw [be4_wordAt _ _ (by omega), be4_wordAt _ _ (by omega), List.drop_zero]
  have : (b.drop 4).take 4 = b.drop 4 := List.take_of_length_le (by simp; omega)
  rw [this]

/-- Once an object has a key, `setkey` throws, whatever the second key is (the same key included). -/
theorem C50_one_key (c : Σ S : Type, SymCipher S) (hc : c ∈ cipherClasses) (key key' : Bytes) (o : c.1)
    (h : c.2.make key = .ok o) : c.2.setkey o key' = .throw := by
  simp only [cipherClasses, List.mem_cons, List.not_mem_nil, or_false] at hc
  rcases hc with rfl | rfl | rfl | rfl | rfl | rfl | rfl | rfl
  · have hk : o.keyset = true := by
      simp only [SymCipher.make, aes, aesSetkey] at h
      rw [if_neg (by simp)] at h
      split at h
      · cases h
      · obtain ⟨_, _, h⟩ := Out.bind_eq_ok.mp h
        obtain rfl := Out.ok.inj h
        rfl
    simp only [aes, aesSetkey, hk, if_true]
  · have hk : o.keyset = true := by
      simp only [SymCipher.make, des, desSetkey] at h
      rw [if_neg (by simp)] at h
      split at h
      · cases h
      · obtain rfl := Out.ok.inj h
        rfl
    simp only [des, desSetkey, hk, if_true]
  · have hk : o.keyset = true := by
      simp only [SymCipher.make, tdes] at h
      obtain ⟨_, _, h⟩ := Out.bind_eq_ok.mp h
      obtain ⟨_, _, h⟩ := Out.bind_eq_ok.mp h
      obtain ⟨_, _, h⟩ := Out.bind_eq_ok.mp h
      simp only [tdesSetkey] at h
      rw [if_neg (by simp)] at h
      split at h
      · cases h
      split at h
      · cases h
      split at h
      · cases h
      obtain rfl := Out.ok.inj h
      rfl
    simp only [tdes, tdesSetkey, hk, if_true, substr]
    by_cases h1 : key'.length < 8
    · by_cases h0 : key'.length < 0
      · omega
      · simp [h0, h1]
    · by_cases h2 : key'.length < 16
      · simp [h1, h2]
      · simp [h1, h2]
  · have hk : o.keyset = true := by
      obtain rfl := Out.ok.inj h
      rfl
    simp only [cast128, castSetkey, hk, if_true]
  · have hk : o.keyset = true := by
      simp only [SymCipher.make, twofish, tfSetkey] at h
      rw [if_neg (by simp)] at h
      split at h
      · cases h
      · obtain rfl := Out.ok.inj h
        rfl
    simp only [twofish, tfSetkey, hk, if_true]
  · have hk : o.keyset = true := by
      simp only [SymCipher.make, idea, ideaSetkey] at h
      rw [if_neg (by simp)] at h
      split at h
      · cases h
      · obtain rfl := Out.ok.inj h
        rfl
    simp only [idea, ideaSetkey, hk, if_true]
  · have hk : o.keyset = true := by
      simp only [SymCipher.make, camellia, camSetkey] at h
      rw [if_neg (by simp)] at h
      split at h
      · cases h
      · obtain rfl := Out.ok.inj h
        rfl
    simp only [camellia, camSetkey, hk, if_true]
  · have hk : o.keyset = true := by
      simp only [SymCipher.make, blowfish, bfSetkey] at h
      rw [if_neg (by simp)] at h
      split at h
      · cases h
      · obtain ⟨_, _, h⟩ := Out.bind_eq_ok.mp h
        obtain ⟨_, _, h⟩ := Out.bind_eq_ok.mp h
        obtain rfl := Out.ok.inj h
        rfl
    simp only [blowfish, bfSetkey, hk, if_true]

/-- The class takes exactly the keys whose size satisfies `P`: with these the constructor returns, with others it
throws. -/
def SymCipher.TakesExactly {S : Type} (c : SymCipher S) (P : Nat → Prop) : Prop :=
  ∀ key : Bytes, (P key.length → ∃ o, c.make key = .ok o) ∧ (¬ P key.length → c.make key = .throw)

theorem C50_des_sizes : des.TakesExactly (· = 8) := by
  intro key
  refine ⟨fun h => (desSetkey_ok key h).imp fun _ h => h.1, fun h => ?_⟩
  simp only [SymCipher.make, des, desSetkey]
  rw [if_neg (by simp), if_pos h]

theorem C50_idea_sizes : idea.TakesExactly (· = 16) := by
  intro key
  refine ⟨fun h => (ideaSetkey_ok key h).imp fun _ h => h.1, fun h => ?_⟩
  simp only [SymCipher.make, idea, ideaSetkey]
  rw [if_neg (by simp), if_pos h]

/-- Blowfish takes 32 to 896 bits; its specification ends at 448. -/
theorem C50_blowfish_sizes : blowfish.TakesExactly (fun n => 4 ≤ n ∧ n ≤ 112) := by
  intro key
  refine ⟨fun h => (bfSetkey_ok key h.1 h.2).imp fun _ h => h.1, fun h => ?_⟩
  simp only [SymCipher.make, blowfish, bfSetkey]
  rw [if_neg (by simp), if_pos (by omega)]

/-- Triple DES as `Sym::setup` calls it takes every string of 24 octets and more, ignoring what follows the 24th. -/
theorem C50_tdes_sizes : tdes.TakesExactly (24 ≤ ·) := by
  intro key
  refine ⟨fun h => ⟨_, tdesSetkey_ok key h⟩, fun h => ?_⟩
  simp only [SymCipher.make, tdes, substr]
  by_cases h1 : key.length < 8
  · simp [h1]
  · by_cases h2 : key.length < 16
    · simp [h1, h2]
    · simp only [Nat.not_lt_zero, if_false, h1, h2, Out.ok_bind, tdesSetkey]
      rw [if_neg (by simp), if_neg (by simp; omega), if_neg (by simp; omega), if_pos (by simp; omega)]

/-- CAST-128 takes everything, the empty key included. -/
theorem C50_cast128_sizes_fails : cast128.TakesExactly (fun _ => True) := by
  intro key
  exact ⟨fun _ => (castSetkey_ok key).imp fun _ h => h.1, fun h => absurd trivial h⟩

/-- AES takes 128, 192 and 256 bits, but also every size that differs from these by a multiple of 2048 bits
(AES.cpp:142): the claim fails for long keys. -/
theorem C50_aes_sizes_fails :
    aes.TakesExactly (fun n => n % 256 = 16 ∨ n % 256 = 24 ∨ n % 256 = 32) := by
  intro key
  refine ⟨fun h => (aesSetkey_ok key h).imp fun _ h => h.1, fun h => ?_⟩
  simp only [SymCipher.make, aes, aesSetkey]
  rw [if_neg (by simp), if_pos (by omega)]

/-- Twofish likewise (Twofish.cpp:105). -/
theorem C50_twofish_sizes_fails :
    twofish.TakesExactly (fun n => n % 256 = 16 ∨ n % 256 = 24 ∨ n % 256 = 32) := by
  intro key
  refine ⟨fun h => (tfSetkey_ok key h).imp fun _ h => h.1, fun h => ?_⟩
  simp only [SymCipher.make, twofish, tfSetkey]
  rw [if_neg (by simp), if_pos (by omega)]

/-- Camellia keeps the size modulo 65536 (Camellia.cpp:221). -/
theorem C50_camellia_sizes_fails :
    camellia.TakesExactly (fun n => n % 65536 = 16 ∨ n % 65536 = 24 ∨ n % 65536 = 32) := by
  intro key
  refine ⟨fun h => (camSetkey_ok key h).imp fun _ h => h.1, fun h => ?_⟩
  simp only [SymCipher.make, camellia, camSetkey]
  rw [if_neg (by simp), if_pos (by omega)]

/-- Restricted to keys below 256 octets the three classes take 16, 24 and 32 octets only. -/
theorem C50_sizes_partial (key : Bytes) (h : key.length < 256) (hn : key.length ≠ 16) (hn' : key.length ≠ 24)
    (hn'' : key.length ≠ 32) : aes.make key = .throw ∧ twofish.make key = .throw ∧ camellia.make key = .throw := by
  refine ⟨(C50_aes_sizes_fails key).2 ?_, (C50_twofish_sizes_fails key).2 ?_, (C50_camellia_sizes_fails key).2 ?_⟩
  all_goals omega

/-- A key of 272 octets: AES takes it, and uses its first 16 octets. -/
theorem C50_aes_ignores_octets_fails (key : Bytes) (h : key.length = 272) :
    aes.make key = aes.make (key.take 16) := by
  have hw : ∀ x ∈ List.range 4, wordAt 32 key (4 * x) 4 = wordAt 32 (key.take 16) (4 * x) 4 := by
    intro x hx
    have := List.mem_range.mp hx
    simp only [wordAt]
    rw [List.drop_take, List.take_take]
    congr 3
    omega
  have l : (key.take 16).length = 16 := by simp [h]
  simp only [SymCipher.make, aes, aesSetkey, h, l, Nat.reduceMod, Nat.reduceDiv, Nat.reduceAdd, Nat.reduceSub]
  rw [List.map_congr_left hw]

/-- A keyed object of each class exists, so the hypothesis of `C50_one_key` can be met. -/
example (c : Σ S : Type, SymCipher S) (hc : c ∈ cipherClasses) : ∃ key o, c.2.make key = .ok o := by
  simp only [cipherClasses, List.mem_cons, List.not_mem_nil, or_false] at hc
  rcases hc with rfl | rfl | rfl | rfl | rfl | rfl | rfl | rfl
  · exact ⟨List.replicate 16 1, (C50_aes_sizes_fails _).1 (by decide)⟩
  · exact ⟨List.replicate 8 1, (C50_des_sizes _).1 (by decide)⟩
  · exact ⟨List.replicate 24 1, (C50_tdes_sizes _).1 (by decide)⟩
  · exact ⟨List.replicate 16 1, (C50_cast128_sizes_fails _).1 trivial⟩
  · exact ⟨List.replicate 16 1, (C50_twofish_sizes_fails _).1 (by decide)⟩
  · exact ⟨List.replicate 16 1, (C50_idea_sizes _).1 (by decide)⟩
  · exact ⟨List.replicate 16 1, (C50_camellia_sizes_fails _).1 (by decide)⟩
  · exact ⟨List.replicate 16 1, (C50_blowfish_sizes _).1 (by decide)⟩

end OpenPGP
