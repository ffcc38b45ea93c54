import Verif.Spec.KeyLayout
import Verif.Spec.MessageGrammar

/-!
# What objects of the classes hold

RFC 4880, 11.1 to 11.4. What a list of packets must be for a key, a message, a detached signature, a revocation certificate. The check of the octets in
front of this (armor, framing, bodies) is a parameter: `reads d ps` says that `d` is read as the packets `ps`, `unpacks alg d x` that `x` is what the compressed
octets `d` unpack to.
-/
namespace OpenPGP.Rfc
variable {E : Type}

/-- A single compressed packet. -/
def Packed (ps : List (Pkt E)) : Prop := ∃ fmt part alg d, ps = [⟨fmt, part, .compressed alg d⟩]

/-- The packets of a message behind all layers of compression, with header and algorithm of the innermost one (or of `comp`, the layer around it). -/
inductive Unwraps (reads : Bytes → List (Pkt E) → Prop) (unpacks : UInt8 → Bytes → Bytes → Prop) :
    Option (Fmt × Bool × UInt8) → List (Pkt E) → Option (Fmt × Bool × UInt8) → List (Pkt E) → Prop
  | plain (comp : Option (Fmt × Bool × UInt8)) (ps : List (Pkt E)) (hm : Derives .message (ps.map (·.body.tag))) (h : ¬ Packed ps) :
      Unwraps reads unpacks comp ps comp ps
  | layer (comp comp' : Option (Fmt × Bool × UInt8)) (fmt : Fmt) (part : Bool) (alg : UInt8) (d x : Bytes) (inner ps : List (Pkt E))
      (h1 : unpacks alg d x) (h2 : reads x inner) (h3 : Unwraps reads unpacks (some (fmt, part, alg)) inner comp' ps) :
      Unwraps reads unpacks comp [⟨fmt, part, .compressed alg d⟩] comp' ps

/-- A signature that revokes a key, a subkey or a certification. -/
def RevocationSig (b : Body E) : Prop := SigOf (fun t => t = 0x20 ∨ t = 0x28 ∨ t = 0x30) b

end OpenPGP.Rfc
