import Verif.Lemmas.HashStd
import Verif.Model.Algs
import Verif.Model.Pkcs1

/-!
# C49: the built-in hash functions are the standard ones

`Std.hashOf` (Spec/Hash.lean) names MD5, SHA-1, RIPEMD-160 and the SHA-2 family as RFC 1321, FIPS 180-4 and the
RIPEMD-160 paper define them; `builtinHash` models `Hash::use` of the library built without OpenSSL.
-/
namespace OpenPGP

/-- For every supported algorithm and every input shorter than 4 GiB, `Hash::use` returns the digest that the
standard defines. -/
theorem C49_standard (alg : UInt8) (H : Bytes → Bytes) (hH : Std.hashOf alg = some H) (m : Bytes)
    (hm : m.length < 2 ^ 32) : builtinHash alg m = .ok (H m) := by
  rw [Std.hashOf] at hH
  rw [builtinHash]
  split_ifs at hH ⊢ <;> obtain rfl := Option.some.inj hH
  · exact use_ok md5_implements m hm
  · exact use_ok sha1_implements m hm
  · exact use_ok ripemd160_implements m hm
  · exact use_ok sha256_implements m hm
  · exact use_ok sha384_implements m hm
  · exact use_ok sha512_implements m hm
  · exact use_ok sha224_implements m hm

/-- Every other algorithm number is refused. -/
theorem C49_unknown_throws (alg : UInt8) (h : Std.hashOf alg = none) (m : Bytes) : builtinHash alg m = .throw := by
  rw [Std.hashOf] at h
  rw [builtinHash]
  split_ifs at h ⊢
  rfl

/-- The supported algorithms are exactly those for which the library lists a digest length, and the digests have
that length. -/
theorem C49_digest_size (alg : UInt8) : (hashLen alg).isSome = (Std.hashOf alg).isSome ∧
    ∀ H n, Std.hashOf alg = some H → hashLen alg = some n → ∀ m, (H m).length = n := by
  constructor
  · rw [Std.hashOf, hashLen]
    split_ifs <;> rfl
  · intro H n hH hn m
    rw [Std.hashOf] at hH
    rw [hashLen] at hn
    split_ifs at hH hn <;> obtain rfl := Option.some.inj hH <;> obtain rfl := Option.some.inj hn
    · simp [Std.md5, Std.encLE]
    · simp [Std.sha1, Std.out5, Std.encBE]
    · simp [Std.ripemd160, Std.out5, Std.encLE]
    · simp [Std.sha256, Std.out8, Std.encBE]
    · simp [Std.sha384, Std.out8, Std.encBE]
    · simp [Std.sha512, Std.out8, Std.encBE]
    · simp [Std.sha224, Std.out8, Std.encBE]

/-- The published test vectors for "abc" (RFC 1321 A.5, FIPS 180 examples, the RIPEMD-160 paper). -/
example : [1, 2, 3, 8, 11].map (fun a => builtinHash a (ascii "abc")) =
    [.ok [0x90, 0x01, 0x50, 0x98, 0x3c, 0xd2, 0x4f, 0xb0, 0xd6, 0x96, 0x3f, 0x7d, 0x28, 0xe1, 0x7f, 0x72],
     .ok [0xa9, 0x99, 0x3e, 0x36, 0x47, 0x06, 0x81, 0x6a, 0xba, 0x3e, 0x25, 0x71, 0x78, 0x50, 0xc2, 0x6c, 0x9c,
      0xd0, 0xd8, 0x9d],
     .ok [0x8e, 0xb2, 0x08, 0xf7, 0xe0, 0x5d, 0x98, 0x7a, 0x9b, 0x04, 0x4a, 0x8e, 0x98, 0xc6, 0xb0, 0x87, 0xf1,
      0x5a, 0x0b, 0xfc],
     .ok [0xba, 0x78, 0x16, 0xbf, 0x8f, 0x01, 0xcf, 0xea, 0x41, 0x41, 0x40, 0xde, 0x5d, 0xae, 0x22, 0x23, 0xb0,
      0x03, 0x61, 0xa3, 0x96, 0x17, 0x7a, 0x9c, 0xb4, 0x10, 0xff, 0x61, 0xf2, 0x00, 0x15, 0xad],
     .ok [0x23, 0x09, 0x7d, 0x22, 0x34, 0x05, 0xd8, 0x22, 0x86, 0x42, 0xa4, 0x77, 0xbd, 0xa2, 0x55, 0xb3, 0x2a,
      0xad, 0xbc, 0xe4, 0xbd, 0xa0, 0xb3, 0xf7, 0xe3, 0x6c, 0x9d, 0xa7]] := by decide +kernel

/-- … and therefore of the specification. -/
example : Std.sha1 (ascii "abc") = [0xa9, 0x99, 0x3e, 0x36, 0x47, 0x06, 0x81, 0x6a, 0xba, 0x3e, 0x25, 0x71, 0x78,
    0x50, 0xc2, 0x6c, 0x9c, 0xd0, 0xd8, 0x9d] := by
  have h := C49_standard 2 Std.sha1 (by simp [Std.hashOf]) (ascii "abc") (by decide +kernel)
  have h2 : builtinHash 2 (ascii "abc") = .ok [0xa9, 0x99, 0x3e, 0x36, 0x47, 0x06, 0x81, 0x6a, 0xba, 0x3e, 0x25,
    0x71, 0x78, 0x50, 0xc2, 0x6c, 0x9c, 0xd0, 0xd8, 0x9d] := by decide +kernel
  rw [h2] at h
  exact (Out.ok.inj h).symm

end OpenPGP
