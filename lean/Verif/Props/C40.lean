import Verif.Props.C39

/-!
# C40: cipher objects have no memory

`NoMemoryWith key`: in any sequence of `encrypt` and `decrypt` calls on one object (a caller may catch an exception and
go on) each call shows what it would show on a new object with the same key.  `NoMemoryOnBlocksWith key`: the same for
the sequences in which every call is given one block.
-/
namespace OpenPGP

/-- AES. -/
theorem C40_aes (key : Bytes) (h : key.length = 16 ∨ key.length = 24 ∨ key.length = 32) : aes.NoMemoryWith key :=
  aes_noMemory key (by omega)

/-- Triple-DES. -/
theorem C40_tdes (key : Bytes) (h : key.length = 24) : tdes.NoMemoryWith key := tdes_noMemory key (by omega)

/-- CAST-128. -/
theorem C40_cast128 (key : Bytes) : cast128.NoMemoryWith key := cast128_noMemory key

/-- Twofish. -/
theorem C40_twofish (key : Bytes) (h : key.length = 16 ∨ key.length = 24 ∨ key.length = 32) : twofish.NoMemoryWith key :=
  twofish_noMemory key (by omega)

/-- DES, as long as every call is given one block; see `C40_des_swapped_fails`. -/
theorem C40_des_partial (key : Bytes) (h : key.length = 8) : des.NoMemoryOnBlocksWith key := des_noMemoryOnBlocks key h

/-- Blowfish, as long as every call is given one block; see `C40_blowfish_swapped_fails`. -/
theorem C40_blowfish_partial (key : Bytes) (h1 : 4 ≤ key.length) (h2 : key.length ≤ 112) :
    blowfish.NoMemoryOnBlocksWith key := blowfish_noMemoryOnBlocks key h1 h2

/-- Camellia, as long as every call is given one block; see `C40_camellia_swapped_fails`. -/
theorem C40_camellia_partial (key : Bytes) (h : key.length = 16 ∨ key.length = 24 ∨ key.length = 32) :
    camellia.NoMemoryOnBlocksWith key := camellia_noMemoryOnBlocks key (by omega)

/-- Camellia and the two others reverse their subkeys before they check the size of the data and the exception leaves
them reversed (DES.cpp:118-123, Blowfish.cpp:94-99, Camellia.cpp:363-368): after a `decrypt` that threw, `encrypt`
decrypts and `decrypt` encrypts. -/
theorem C40_des_swapped_fails (key : Bytes) (h : key.length = 8) :
    ∃ o, des.make key = .ok o ∧ ∀ x b : Bytes, x.length ≠ 8 → b.length = 8 →
      (des.decrypt o x).2 = .throw ∧
      (des.encrypt (des.decrypt o x).1 b).2 = (des.decrypt o b).2 ∧
      (des.decrypt (des.decrypt o x).1 b).2 = (des.encrypt o b).2 := by
  obtain ⟨o, ho, hs⟩ := desSetkey_ok key h
  refine ⟨o, ho, ?_⟩
  intro x b hx hb
  have e : des.decrypt o x = ({ o with keys := o.keys.reverse }, .throw) := by
    simp [des, desDecrypt, desRun, hs, hx]
  have hs' : DesObj.keyset { o with keys := o.keys.reverse } = true := hs
  refine ⟨by rw [e], ?_, ?_⟩
  · rw [e, desEncrypt_eq hs' hb, desDecrypt_eq hs hb]
  · rw [e, desEncrypt_eq hs hb, desDecrypt_eq hs' hb]
    simp

/-- See `C40_des_swapped_fails`. -/
theorem C40_blowfish_swapped_fails (key : Bytes) (h1 : 4 ≤ key.length) (h2 : key.length ≤ 112) :
    ∃ o, blowfish.make key = .ok o ∧ ∀ x b : Bytes, x.length ≠ 8 → b.length = 8 →
      (blowfish.decrypt o x).2 = .throw ∧
      (blowfish.encrypt (blowfish.decrypt o x).1 b).2 = (blowfish.decrypt o b).2 ∧
      (blowfish.decrypt (blowfish.decrypt o x).1 b).2 = (blowfish.encrypt o b).2 := by
  obtain ⟨o, ho, hr, hk⟩ := bfSetkey_ok key h1 h2
  refine ⟨o, ho, ?_⟩
  intro x b hx hb
  have e : blowfish.decrypt o x = ({ o with p := o.p.reverse }, .throw) := by
    simp only [blowfish, bfDecrypt, bfRun, hr.1, hx, Bool.xor_self, Bool.false_eq_true, if_false, ne_eq,
      not_false_eq_true, if_true]
  have hr' : BfObj.Ready { o with p := o.p.reverse } := ⟨hr.1, by simp [hr.2]⟩
  have enc : ∀ {o : BfObj} (_ : o.Ready), (blowfish.encrypt o b).2 = bfBlock o.p o.sbox b :=
    fun hr => by simp only [blowfish, bfRun_ready hr hb]
  refine ⟨by rw [e], ?_, ?_⟩
  · rw [e, enc hr', bfDecrypt_eq hr hb]
  · rw [e, enc hr, bfDecrypt_eq hr' hb]
    simp

/-- See `C40_des_swapped_fails`. -/
theorem C40_camellia_swapped_fails (key : Bytes) (h : key.length = 16 ∨ key.length = 24 ∨ key.length = 32) :
    ∃ o, camellia.make key = .ok o ∧ ∀ x b : Bytes, x.length ≠ 16 → b.length = 16 →
      (camellia.decrypt o x).2 = .throw ∧
      (camellia.encrypt (camellia.decrypt o x).1 b).2 = (camellia.decrypt o b).2 ∧
      (camellia.decrypt (camellia.decrypt o x).1 b).2 = (camellia.encrypt o b).2 := by
  obtain ⟨o, ho, hr⟩ := camSetkey_ok key (by omega)
  refine ⟨o, ho, ?_⟩
  intro x b hx hb
  have e : camellia.decrypt o x = ({ o with keys := o.keys.reverse }, .throw) := by
    simp [camellia, camDecrypt, camRun, hr.set, hx]
  have hr' : CamObj.Ready { o with keys := o.keys.reverse } :=
    ⟨hr.set, by simp [hr.len], fun x hx => hr.len8 x (by simpa using hx)⟩
  have enc : ∀ {o : CamObj} (_ : o.Ready), (camellia.encrypt o b).2 = .ok (camBlock o.keysize o.keys b) :=
    fun hr => by simp only [camellia, camRun_eq hr hb]
  refine ⟨by rw [e], ?_, ?_⟩
  · rw [e, enc hr', camDecrypt_eq hr hb]
  · rw [e, enc hr, camDecrypt_eq hr' hb]
    simp

/-- IDEA, as long as `decrypt` is called at most once and last; see `C40_idea_fails`. -/
theorem C40_idea_partial (key : Bytes) (h : key.length = 16) :
    ∃ o, idea.make key = .ok o ∧ ∀ (blocks : List Bytes) (last : CipherCall),
      idea.run (blocks.map CipherCall.encrypt ++ [last]) o = (blocks.map CipherCall.encrypt ++ [last]).map fun k => (idea.call o k).2 := by
  obtain ⟨o, ho, hs, hk⟩ := ideaSetkey_ok key h
  refine ⟨o, ho, ?_⟩
  intro blocks last
  have he : ∀ b, (idea.encrypt o b).1 = o := by
    intro b
    simp only [idea, ideaEncrypt]
    split
    · rfl
    · split <;> rfl
  induction blocks with
  | nil => simp [SymCipher.run]
  | cons b bs ih =>
    simp only [List.map_cons, List.cons_append, SymCipher.run]
    have : (idea.call o (.encrypt b)).1 = o := he b
    rw [this, ih]

/-- `IDEA::decrypt` overwrites the subkeys with those for decryption (IDEA.cpp:151-163): the second call in a row does
not return what the first did, and `encrypt` afterwards does not encrypt with the key. -/
theorem C40_idea_fails :
    let key : Bytes := [0, 1, 0, 2, 0, 3, 0, 4, 0, 5, 0, 6, 0, 7, 0, 8]
    let b : Bytes := [0, 0, 0, 1, 0, 2, 0, 3]
    (do let o ← idea.make key
        pure (idea.run [.decrypt b, .decrypt b] o)) ≠
      (do let o ← idea.make key
          pure [(idea.decrypt o b).2, (idea.decrypt o b).2]) ∧
    (do let o ← idea.make key
        pure (idea.run [.decrypt b, .encrypt b] o)) ≠
      (do let o ← idea.make key
          pure [(idea.decrypt o b).2, (idea.encrypt o b).2]) ∧
    ¬ idea.NoMemoryOnBlocksWith key := by
  intro key b
  have h1 : (do let o ← idea.make key
                pure (idea.run [.decrypt b, .decrypt b] o)) ≠
      (do let o ← idea.make key
          pure [(idea.decrypt o b).2, (idea.decrypt o b).2]) := by decide +kernel
  refine ⟨h1, by decide +kernel, ?_⟩
  rintro ⟨o, ho, h⟩
  apply h1
  rw [ho, Out.ok_bind, Out.ok_bind, h [.decrypt b, .decrypt b] (by
    intro k hk
    simp only [List.mem_cons, List.not_mem_nil, or_false, or_self] at hk
    subst hk
    rfl)]
  rfl

/-! A DES object that threw: what `encrypt` returns afterwards is another block. -/

example : (do let o ← des.make [1, 2, 3, 4, 5, 6, 7, 8]
              (des.encrypt (des.decrypt o [1]).1 (List.replicate 8 2)).2) ≠
    (do let o ← des.make [1, 2, 3, 4, 5, 6, 7, 8]; (des.encrypt o (List.replicate 8 2)).2) := by decide +kernel
example : (do let o ← camellia.make (List.replicate 16 1)
              (camellia.encrypt (camellia.decrypt o [1]).1 (List.replicate 16 2)).2) ≠
    (do let o ← camellia.make (List.replicate 16 1); (camellia.encrypt o (List.replicate 16 2)).2) := by decide +kernel

end OpenPGP
