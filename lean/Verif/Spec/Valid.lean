import Verif.Model.Packets

/-!
# What RFC 4880 allows in the fields of packets

Numbers are "assigned" if RFC 4880 section 9 lists them, reserved ones and those for experiments included.
-/
namespace OpenPGP.Rfc

/-- Numbers for private and experimental use. -/
def private_ (a : UInt8) : Prop := 100 ≤ a.toNat ∧ a.toNat ≤ 110

/-- RFC 4880 9.1. -/
def PkAlg (a : UInt8) : Prop := a ∈ [1, 2, 3, 16, 17, 18, 19, 20, 21] ∨ private_ a

/-- RFC 4880 9.2, RFC 5581 for Camellia. -/
def SymAlg (a : UInt8) : Prop := a ∈ [0, 1, 2, 3, 4, 5, 6, 7, 8, 9, 10, 11, 12, 13] ∨ private_ a

/-- RFC 4880 9.3. -/
def CompAlg (a : UInt8) : Prop := a ∈ [0, 1, 2, 3] ∨ private_ a

/-- RFC 4880 9.4. -/
def HashAlg (a : UInt8) : Prop := a ∈ [1, 2, 3, 4, 5, 6, 7, 8, 9, 10, 11] ∨ private_ a

/-- The length of a digest. -/
def Digest (a : UInt8) (n : Nat) : Prop := (a, n) ∈ [(1, 16), (2, 20), (3, 20), (8, 32), (9, 48), (10, 64), (11, 28)]

/-- The length of a block. -/
def Block (a : UInt8) (n : Nat) : Prop := (a ∈ [1, 2, 3, 4] ∧ n = 8) ∨ (a ∈ [7, 8, 9, 10, 11, 12, 13] ∧ n = 16)

/-- RFC 4880 5.2.1. -/
def SigType (t : UInt8) : Prop := t ∈ [0x00, 0x01, 0x02, 0x10, 0x11, 0x12, 0x13, 0x18, 0x19, 0x1f, 0x20, 0x28, 0x30, 0x40, 0x50]

/-- RFC 4880 5.2.3.23. -/
def Reason (c : UInt8) : Prop := c ∈ [0, 1, 2, 3, 32] ∨ private_ c

/-- No bit is set outside `mask`. -/
def Only (mask : UInt8) (s : Bytes) : Prop := ∀ o ∈ s, ∀ i < 8, o.toNat.testBit i → mask.toNat.testBit i

/-- RFC 4880 3.7.1. -/
def AllowedS2K : S2K → Prop
  | .simple h => HashAlg h
  | .salted h salt => HashAlg h ∧ salt.length = 8
  | .iterated h salt _ => HashAlg h ∧ salt.length = 8

variable {E : Type}

/-- RFC 4880 5.2.3.4 to 5.2.3.26. `regexOk`: the regular expression is one. `good`: the embedded signature is allowed. -/
def AllowedSub (regexOk : Bytes → Bool) (good : E → Prop) : SubBody E → Prop
  | .regex r => regexOk r
  | .prefSym s => ∀ o ∈ s, SymAlg o
  | .revKey cls pka f => 0x80 ≤ cls.toNat ∧ PkAlg pka ∧ f.length = 20
  | .issuer k => k.length = 8
  | .notation f _ _ => f.length = 4 ∧ ∀ o ∈ f, o = 0 ∨ o = 0x80
  | .prefHash s => ∀ o ∈ s, HashAlg o
  | .prefComp s => ∀ o ∈ s, CompAlg o
  | .keyServerPrefs s => Only 0x80 s
  | .keyFlags s => Only 0xbf s
  | .reason c _ => Reason c
  | .features s => Only 0x01 s
  | .target pka h d => PkAlg pka ∧ Digest h d.length
  | .embedded e => ∃ s, e = some s ∧ good s
  | _ => True

/-- RFC 4880 5.2. `mpis`: the number of integers is right for the algorithm as well. -/
structure AllowedSig (regexOk : Bytes → Bool) (good : E → Prop) (mpis : Prop) (s : Tag2 E) : Prop where
  version : s.version = 3 ∨ s.version = 4
  type : SigType s.type
  pka : s.pka ∈ [1, 3, 17]
  hash : HashAlg s.hash
  subs : s.version = 4 → ∀ x ∈ s.hashed ++ s.unhashed, AllowedSub regexOk good x.body
  left16 : s.left16.length = 2
  count : mpis → (s.pka, s.mpi.length) ∈ [(1, 1), (3, 1), (17, 2)]

/-- RFC 4880 5.5.2. -/
structure AllowedKey (mpis : Prop) (k : KeyPkt) : Prop where
  version : (k.version = 3 ∧ k.pka ∈ [1, 2, 3]) ∨ (k.version = 4 ∧ PkAlg k.pka)
  count : mpis → (k.pka, k.mpi.length) ∈ [(1, 2), (2, 2), (3, 2), (16, 3), (17, 4)]

/-- RFC 4880 5.5.3: no protection, protection with a key made of a passphrase by a specifier, or one with the old way. -/
structure AllowedSecret (mpis : Prop) (t : Tag5) : Prop where
  key : AllowedKey mpis t.key
  s2k : t.s2kCon = 254 ∨ t.s2kCon = 255 → ∃ s, t.s2k = some s ∧ AllowedS2K s
  iv : t.s2kCon ≠ 0 → Block t.sym t.iv.length

/-- RFC 4880 5.1 to 5.14, for what an implementation writes (5.10: trust packets are not). -/
def Allowed (regexOk : Bytes → Bool) (good : E → Prop) (mpis : Prop) : Body E → Prop
  | .pkesk t => t.version = 3 ∧ t.keyid.length = 8 ∧ t.pka ∈ [1, 2, 16] ∧ (mpis → (t.pka, t.mpi.length) ∈ [(1, 1), (2, 1), (16, 2)])
  | .sig s => AllowedSig regexOk good mpis s
  | .skesk t => t.version = 4 ∧ SymAlg t.sym ∧ ∃ s, t.s2k = some s ∧ AllowedS2K s
  | .onePass t => t.version = 3 ∧ SigType t.type ∧ HashAlg t.hash ∧ PkAlg t.pka ∧ t.keyid.length = 8
  | .secretKey t => AllowedSecret mpis t
  | .publicKey k => AllowedKey mpis k
  | .publicSubkey k => AllowedKey mpis k
  | .secretSubkey t => AllowedSecret mpis t
  | .compressed c _ => CompAlg c
  | .symEnc d => 2 ≤ d.length
  | .marker m => m = [0x50, 0x47, 0x50]
  | .literal t => t.format ∈ [0x62, 0x74, 0x75]
  | .trust _ => False
  | .userAttr l => ∀ a ∈ l, a.version = 1 ∧ a.encoding = 1
  | .seip v _ => v = 1
  | .mdc h => h.length = 20
  | .userId _ => True
  | .priv _ _ => True

end OpenPGP.Rfc
