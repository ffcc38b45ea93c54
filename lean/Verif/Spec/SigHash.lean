import Verif.Model.Sigcalc

/-!
# RFC 4880 5.2.4: what is signed

The octets hashed for a version 4 signature are the signed content followed by the hashed part of the signature packet (version,
type, public-key algorithm, hash algorithm, length and octets of the hashed subpackets), 0x04, 0xff and the length of the hashed
part. Keys are hashed as 0x99, two octets of length and the packet body; user IDs as 0xb4, four octets of length and the body,
user attributes as 0xd1 likewise.
-/
namespace OpenPGP.Rfc
variable {E : Type}

/-- The things that are signed. -/
inductive Signed (E : Type) where
  | document (data : Bytes)
  | text (text : Bytes)
  | nothing
  | user (key : KeyPkt) (id : Body E)
  | binding (primary sub : KeyPkt)
  | key (key : KeyPkt)

/-- The signature types for each of them. -/
def Signed.fits : Signed E → UInt8 → Prop
  | .document _, t => t = 0x00
  | .text _, t => t = 0x01
  | .nothing, t => t = 0x02 ∨ t = 0x40
  | .user _ _, t => t = 0x10 ∨ t = 0x11 ∨ t = 0x12 ∨ t = 0x13 ∨ t = 0x30
  | .binding _ _, t => t = 0x18 ∨ t = 0x19
  | .key _, t => t = 0x1f ∨ t = 0x20 ∨ t = 0x28

/-- The hashed part of a version 4 signature whose hashed subpackets are written as `hashed`. -/
def trailer (type pka hash : UInt8) (hashed : Bytes) : Bytes := [4, type, pka, hash] ++ be 2 hashed.length ++ hashed

/-- Content and trailer. -/
def hashInput (content trailer : Bytes) : Bytes := content ++ trailer ++ [0x04, 0xff] ++ be 4 trailer.length

/-- A key in the content. -/
def keyContent (body : Bytes) : Bytes := [0x99] ++ be 2 body.length ++ body

/-- A user ID or attribute in the content. -/
def userContent (isId : Bool) (body : Bytes) : Bytes := [if isId then 0xb4 else 0xd1] ++ be 4 body.length ++ body

end OpenPGP.Rfc
