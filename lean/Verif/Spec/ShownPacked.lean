import Verif.Spec.Shown
import Verif.Model.Crypt

/-!
# Specification for C66: compressed packets among others

A compressed packet is shown by what is in it, so two of them can be told apart by their algorithms and by their contents, not by the octets those are packed into.
-/
namespace OpenPGP.Shown
variable {E : Type}

/-- What is in a compressed packet: its octets are unpacked and read as a message. -/
def Contents (z : Zip) (readE : Bytes → Out E) (depth : Nat) (c : UInt8) (x : Bytes) (m : Msg E) : Prop :=
  x ≠ [] ∧ ∃ data, decompress z c x = .ok data ∧ Msg.readRaw z readE (depth + 1) data = .ok m

/-- The packet has the property, or it is a compressed one and the packets in it do, to any depth. -/
def Inside (z : Zip) (readE : Bytes → Out E) (good : Pkt E → Prop) : Nat → Pkt E → Prop
  | 0, p => good p
  | depth + 1, p => good p ∨ ∃ c x m, p.body = .compressed c x ∧ Contents z readE depth c x m ∧ ∀ q ∈ m.packets, Inside z readE good depth q

/-- Packets that are the same, or compressed ones with the same header, the same algorithm, and contents that are alike: packed in the same kind of packet,
if they are packed once more, and the same to this depth. -/
def Alike (z : Zip) (readE : Bytes → Out E) : Nat → Pkt E → Pkt E → Prop
  | 0, p, q => p = q
  | depth + 1, p, q => p = q ∨ p.fmt = q.fmt ∧ p.part = q.part ∧ ∃ c x y m m', p.body = .compressed c x ∧ q.body = .compressed c y ∧
      Contents z readE depth c x m ∧ Contents z readE depth c y m' ∧
      m.comp.map (fun k => (k.1, k.2.1)) = m'.comp.map (fun k => (k.1, k.2.1)) ∧ List.Forall₂ (Alike z readE depth) m.packets m'.packets

end OpenPGP.Shown
