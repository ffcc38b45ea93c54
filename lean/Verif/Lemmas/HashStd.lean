import Verif.Lemmas.HashRun

/-! Each class implements the function of its standard. -/
namespace OpenPGP

theorem unhexlify_even {a x : Bytes} (h : unhexlify a = .ok x) : a.length % 2 = 0 ∧ unhexLoop a = .ok x := by
  rw [unhexlify] at h
  split at h
  · exact absurd h (by simp)
  · exact ⟨by omega, h⟩

theorem unhexlify_append {a b x y : Bytes} (ha : unhexlify a = .ok x) (hb : unhexlify b = .ok y) :
    unhexlify (a ++ b) = .ok (x ++ y) := by
  obtain ⟨ha1, ha2⟩ := unhexlify_even ha
  obtain ⟨hb1, hb2⟩ := unhexlify_even hb
  rw [unhexlify, if_neg (by simp; omega)]
  exact unhexLoop_append _ _ _ _ ha1 ha2 hb2

theorem wordHex32 (h : BitVec 32) : unhexlify (wordHex h) = .ok (be 4 h.toNat) := unhexlify_makehex _ 4 _
theorem wordHex64 (h : BitVec 64) : unhexlify (wordHex h) = .ok (be 8 h.toNat) := unhexlify_makehex _ 8 _

theorem littleEndHex_ok (h : BitVec 32) : unhexlify (littleEndHex (wordHex h)) = .ok (be 4 h.toNat).reverse := by
  have e : littleEndHex (wordHex h) = makehex h.toNat 2 false ++ makehex (h.toNat / 256) 2 false ++
      makehex (h.toNat / 256 / 256) 2 false ++ makehex (h.toNat / 256 / 256 / 256) 2 false := by
    simp only [littleEndHex, wordHex, makehex, Nat.div_div_eq_div_mul]
    rfl
  rw [e]
  have h1 := fun v => unhexlify_makehex v 1 false
  rw [unhexlify_append (unhexlify_append (unhexlify_append (h1 _) (h1 _)) (h1 _)) (h1 _)]
  simp only [be, List.nil_append, List.reverse_append, List.reverse_cons, List.reverse_nil, List.append_assoc]

theorem hex8_32 (s : Words8 32) : unhexlify s.hex = .ok (Std.out8 4 s.st) := by
  simp only [Words8.hex, Words8.st, Std.out8, Std.encBE]
  iterate 7 refine unhexlify_append ?_ (wordHex32 _)
  exact wordHex32 _

theorem hex8_64 (s : Words8 64) : unhexlify s.hex = .ok (Std.out8 8 s.st) := by
  simp only [Words8.hex, Words8.st, Std.out8, Std.encBE]
  iterate 7 refine unhexlify_append ?_ (wordHex64 _)
  exact wordHex64 _

theorem take_append_exact {α : Type} (a b : List α) (n : Nat) (h : a.length = n) : (a ++ b).take n = a := by
  rw [← h]; simp

theorem take_append_exact2 {α : Type} (a b c : List α) (n : Nat) (h : a.length = n) : (a ++ b ++ c).take n = a := by
  rw [List.append_assoc]; exact take_append_exact a _ n h

theorem hex8_224 (s : Words8 32) : unhexlify (s.hex.take 56) = .ok ((Std.out8 4 s.st).take 28) := by
  simp only [Words8.hex, Words8.st, Std.out8, Std.encBE]
  rw [take_append_exact _ _ _ (by simp [wordHex]), take_append_exact _ _ _ (by simp)]
  iterate 6 refine unhexlify_append ?_ (wordHex32 _)
  exact wordHex32 _

theorem hex8_384 (s : Words8 64) : unhexlify (s.hex.take 96) = .ok ((Std.out8 8 s.st).take 48) := by
  simp only [Words8.hex, Words8.st, Std.out8, Std.encBE]
  rw [take_append_exact2 _ _ _ _ (by simp [wordHex]), take_append_exact2 _ _ _ _ (by simp)]
  iterate 5 refine unhexlify_append ?_ (wordHex64 _)
  exact wordHex64 _

theorem md5_implements : Implements md5 Words4.tuple Std.md5Compress
    (0x67452301, 0xefcdab89, 0x98badcfe, 0x10325476) (Std.encLE 8)
    (fun s => Std.encLE 4 s.1.toNat ++ Std.encLE 4 s.2.1.toNat ++ Std.encLE 4 s.2.2.1.toNat ++
      Std.encLE 4 s.2.2.2.toNat) where
  bs4 := ⟨16, rfl⟩
  bs_pos := rfl
  len8 := le_rfl
  bs_le := by decide
  compress := fun s b hb => md5Compress_eq b hb s
  init := rfl
  enc := fun n _ => by
    rw [if_pos (show md5.little = true from rfl)]; exact ⟨rfl, rfl⟩
  hex := fun s => unhexlify_append (unhexlify_append (unhexlify_append (littleEndHex_ok _) (littleEndHex_ok _))
    (littleEndHex_ok _)) (littleEndHex_ok _)

theorem ripemd160_implements : Implements ripemd160 Words5.tuple Std.rmdCompress
    (0x67452301, 0xefcdab89, 0x98badcfe, 0x10325476, 0xc3d2e1f0) (Std.encLE 8) (Std.out5 Std.encLE) where
  bs4 := ⟨16, rfl⟩
  bs_pos := rfl
  len8 := le_rfl
  bs_le := by decide
  compress := fun s b hb => ripemdCompress_eq b hb s
  init := rfl
  enc := fun n _ => by
    rw [if_pos (show ripemd160.little = true from rfl)]; exact ⟨rfl, rfl⟩
  hex := fun s => unhexlify_append (unhexlify_append (unhexlify_append (unhexlify_append (littleEndHex_ok _)
    (littleEndHex_ok _)) (littleEndHex_ok _)) (littleEndHex_ok _)) (littleEndHex_ok _)

theorem sha1_implements : Implements sha1 Words5.tuple Std.sha1Compress
    (0x67452301, 0xefcdab89, 0x98badcfe, 0x10325476, 0xc3d2e1f0) (Std.encBE 8) (Std.out5 Std.encBE) where
  bs4 := ⟨16, rfl⟩
  bs_pos := rfl
  len8 := le_rfl
  bs_le := by decide
  compress := fun s b _ => sha1Compress_eq b s
  init := rfl
  enc := fun n _ => by
    rw [if_neg (show ¬ sha1.little = true from by decide)]; rfl
  hex := fun s => unhexlify_append (unhexlify_append (unhexlify_append (unhexlify_append (wordHex32 _)
    (wordHex32 _)) (wordHex32 _)) (wordHex32 _)) (wordHex32 _)

theorem sha256_implements : Implements sha256 Words8.st (Std.sha2Compress Std.p256) (Std.sqrtInit 32 0)
    (Std.encBE 8) (Std.out8 4) where
  bs4 := ⟨16, rfl⟩
  bs_pos := rfl
  len8 := le_rfl
  bs_le := by decide
  compress := fun s b _ => sha256Compress_eq b s
  init := sha256_init.symm
  enc := fun n _ => by
    rw [if_neg (show ¬ sha256.little = true from by decide)]; rfl
  hex := hex8_32

theorem sha224_implements : Implements sha224 Words8.st (Std.sha2Compress Std.p256) Std.sha224Init
    (Std.encBE 8) (fun s => (Std.out8 4 s).take 28) where
  bs4 := ⟨16, rfl⟩
  bs_pos := rfl
  len8 := le_rfl
  bs_le := by decide
  compress := fun s b _ => sha256Compress_eq b s
  init := sha224_init.symm
  enc := fun n _ => by
    rw [if_neg (show ¬ sha224.little = true from by decide)]; rfl
  hex := fun s => by
    have e : sha224.hex s = s.hex.take 56 := by simp only [sha224]
    rw [e, hex8_224 s]

theorem sha512_implements : Implements sha512 Words8.st (Std.sha2Compress Std.p512) (Std.sqrtInit 64 0)
    (Std.encBE 16) (Std.out8 8) where
  bs4 := ⟨32, rfl⟩
  bs_pos := rfl
  len8 := by decide
  bs_le := by decide
  compress := fun s b _ => sha512Compress_eq b s
  init := sha512_init.symm
  enc := fun n _ => by
    rw [if_neg (show ¬ sha512.little = true from by decide)]; rfl
  hex := hex8_64

theorem sha384_implements : Implements sha384 Words8.st (Std.sha2Compress Std.p512) (Std.sqrtInit 64 8)
    (Std.encBE 16) (fun s => (Std.out8 8 s).take 48) where
  bs4 := ⟨32, rfl⟩
  bs_pos := rfl
  len8 := by decide
  bs_le := by decide
  compress := fun s b _ => sha512Compress_eq b s
  init := sha384_init.symm
  enc := fun n _ => by
    rw [if_neg (show ¬ sha384.little = true from by decide)]; rfl
  hex := fun s => by
    have e : sha384.hex s = s.hex.take 96 := by simp only [sha384]
    rw [e, hex8_384 s]

end OpenPGP
