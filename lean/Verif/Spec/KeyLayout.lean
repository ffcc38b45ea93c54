import Verif.Model.Packets

/-!
# RFC 4880 11.1, 11.2: the layout of transferable keys

    - One Public-Key packet
    - Zero or more revocation signatures
    - One or more User ID packets
    - After each User ID packet, zero or more Signature packets (certifications)
    - Zero or more User Attribute packets
    - After each User Attribute packet, zero or more Signature packets (certifications)
    - Zero or more Subkey packets
    - After each Subkey packet, one Signature packet, plus optionally a revocation

User Attribute packets and User ID packets may be freely intermixed. A version 3 key has no subkeys. Transferable secret keys
have secret key and secret subkey packets instead. User IDs may also carry certification revocations.
-/
namespace OpenPGP.Rfc
variable {E : Type}

/-- A signature packet of a type with property `P`. -/
def SigOf (P : UInt8 → Prop) (b : Body E) : Prop := ∃ s : Tag2 E, b = .sig s ∧ P s.type

/-- Key revocation: type 0x20. -/
def KeyRevocation : Body E → Prop := SigOf (· = 0x20)

/-- Certification: types 0x10 to 0x13. -/
def Certification : Body E → Prop := SigOf fun t => 0x10 ≤ t ∧ t ≤ 0x13

/-- A user ID with its certifications and revocations, or a user attribute with its certifications. -/
inductive UserBlock : List (Body E) → Prop
  | id (u : Bytes) (sigs : List (Body E)) (h : ∀ s ∈ sigs, Certification s ∨ SigOf (· = 0x30) s) : UserBlock (.userId u :: sigs)
  | attribute (l : List Attr) (sigs : List (Body E)) (h : ∀ s ∈ sigs, Certification s) : UserBlock (.userAttr l :: sigs)

/-- The block starts with a user ID. -/
def IdBlock (g : List (Body E)) : Prop := ∃ u sigs, g = .userId u :: sigs

/-- A subkey packet (tag `subkey`) followed by signatures, one at least being a subkey binding (0x18). `strict` asks the other
ones to be subkey revocations (0x28) or bindings. -/
def SubkeyBlock (strict : Bool) (subkey : Nat) (g : List (Body E)) : Prop :=
  ∃ k sigs, g = k :: sigs ∧ k.tag = subkey ∧ (∀ s ∈ sigs, SigOf (fun t => strict = true → t = 0x18 ∨ t = 0x28) s) ∧
    ∃ s ∈ sigs, SigOf (· = 0x18) s

/-- A transferable key: primary key with tag `key` and subkeys with tag `subkey`. -/
def TransferableKey (strict : Bool) (key subkey : Nat) (l : List (Body E)) : Prop :=
  ∃ (primary : Body E) (revs : List (Body E)) (users subkeys : List (List (Body E))),
    l = primary :: (revs ++ users.flatten ++ subkeys.flatten) ∧ primary.tag = key ∧ (∀ r ∈ revs, KeyRevocation r) ∧
    (∀ g ∈ users, UserBlock g) ∧ (∃ g ∈ users, IdBlock g) ∧ (∀ g ∈ subkeys, SubkeyBlock strict subkey g) ∧
    (subkeys ≠ [] → ∀ k, (primary = .publicKey k ∨ ∃ t : Tag5, primary = .secretKey t ∧ t.key = k) → k.version ≠ 3)

end OpenPGP.Rfc
