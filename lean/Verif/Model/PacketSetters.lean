import Verif.Model.Framing
import Verif.Model.Cleartext
import Verif.Model.Verify

/-!
# Setters of `Packet::Tag`, `Packet::Partial`, `CleartextSignature`, and `RevocationCertificate::get_revoke_type`
-/
namespace OpenPGP
variable {E : Type}

/-- The header members of a packet object (Packet.h, Partial.h). -/
structure HeaderObj where
  tag : UInt8
  fmt : Fmt
  part : Bool
  deriving DecidableEq, Repr

namespace HeaderObj

/-- `Tag::set_tag`, `Tag::set_header_format` (Packet.cpp:155-161), `Partial::set_partial` (Partial.cpp:37-39). -/
inductive Call where
  | tag (t : UInt8) | format (f : Fmt) | part (p : Bool)

def call : Call → HeaderObj → HeaderObj
  | .tag t, o => { o with tag := t }
  | .format f, o => { o with fmt := f }
  | .part p, o => { o with part := p }

/-- `Tag::write()` (Packet.cpp:127-133, 63-70) of an object with these members whose `raw()` is `body`. -/
def write (o : HeaderObj) (body : Bytes) : Out Bytes := writePacket o.fmt o.tag.toNat o.part body

end HeaderObj

namespace Cleartext

/-- The setters of `CleartextSignature` (CleartextSignature.cpp:174-185). -/
inductive Call (α : Type) where
  | headers (k : List (Bytes × Bytes)) | message (m : Bytes) | sig (s : PgpObj α)

/-- `set_sig` marks the signature as armored. -/
def call {α : Type} : Call α → Cleartext α → Cleartext α
  | .headers k, c => { c with headers := k }
  | .message m, c => { c with message := m }
  | .sig s, c => { c with sig := { s with armored := true } }

end Cleartext

/-- `RevocationCertificate::get_revoke_type` (RevocationCertificate.cpp:43-49). -/
def getRevokeType (rev : PgpObj (Pkt E)) : Out UInt8 :=
  match revocationPacket rev with
  | none => .throw
  | some s => .ok s.type

end OpenPGP
