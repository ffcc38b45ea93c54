import Verif.Model.Packets
import Verif.Model.Tag5

/-!
# `src/Key.cpp`: transferable keys

The index `i` into `packets` is modelled by the packets from `i` on; `packets[i]` with `i == packets.size()` (an empty rest) is
undefined behaviour. Casts follow the tag that was tested before them.
-/
namespace OpenPGP

/-- `PGP::Type_t` as far as keys are concerned (PGP.h:47-58). -/
inductive KeyKind where
  | pub | sec | other
  deriving DecidableEq, Repr

/-- A `Key`, `PublicKey` or `SecretKey` object without its armor headers. -/
structure KeyObj (E : Type) where
  kind : KeyKind
  packets : List (Pkt E)
  deriving DecidableEq, Repr

namespace Body
variable {E : Type}

/-- The fields of a key packet of any of the four kinds (`static_pointer_cast <Packet::Key>`). -/
def keyPart : Body E → Option KeyPkt
  | publicKey k => some k
  | publicSubkey k => some k
  | secretKey t => some t.key
  | secretSubkey t => some t.key
  | _ => none

/-- The fields of a secret key packet of either kind (`static_pointer_cast <Packet::Tag5>`). -/
def secretPart : Body E → Option Tag5
  | secretKey t => some t
  | secretSubkey t => some t
  | _ => none

end Body

/-- `Signature_Type::is_certification` (sigtypes.cpp:11-16). -/
def isCertification (t : UInt8) : Bool := t == 0x10 || t == 0x11 || t == 0x12 || t == 0x13

namespace KeyObj
variable {E : Type}

/-- The packet tags of the key and of its subkeys (Key.cpp:247-260). -/
def tags : KeyKind → Option (Nat × Nat)
  | .pub => some (6, 14)
  | .sec => some (5, 7)
  | .other => none

/-- The revocation signatures of the primary key (Key.cpp:279-290): the packets behind them, or `none` for a signature of
another type. -/
def skipRevocations : List (Body E) → Option (List (Body E))
  | .sig s :: r => if s.type = 0x20 then skipRevocations r else none
  | l => some l

/-- The signatures behind a user packet (Key.cpp:338-353); `isId` tells a user ID from a user attribute. -/
def skipCertifications (isId : Bool) : List (Body E) → Option (List (Body E))
  | .sig s :: r => if isCertification s.type || (isId && s.type == 0x30) then skipCertifications isId r else none
  | l => some l

/-- The `do ... while` loop over the user packets (Key.cpp:307-355): outcome "return false" is `none`, otherwise whether a user
ID was seen and the packets behind the users. -/
def userLoop : (fuel : Nat) → (seen : Bool) → List (Body E) → Out (Option (Bool × List (Body E)))
  | 0, _, _ => .diverge
  | fuel + 1, seen, l =>
    match l with
    | [] => .ub
    | b :: r =>
      if b.tag ≠ 13 ∧ b.tag ≠ 17 then .ok none
      else
        match skipCertifications (b.tag == 13) r with
        | none => .ok none
        | some [] => .ok (some (seen || b.tag == 13, []))
        | some (b' :: r') =>
          if b'.tag = 13 ∨ b'.tag = 17 then userLoop fuel (seen || b.tag == 13) (b' :: r')
          else .ok (some (seen || b.tag == 13, b' :: r'))

/-- The signatures behind a subkey (Key.cpp:388-402): whether there is a binding signature, and the packets behind. -/
def skipSubkeySigs : (bound : Bool) → List (Body E) → Bool × List (Body E)
  | bound, .sig s :: r => skipSubkeySigs (bound || s.type == 0x18) r
  | bound, l => (bound, l)

/-- The loop over the subkeys (Key.cpp:362-408). -/
def subkeyLoop (subkey : Nat) (version : UInt8) : (fuel : Nat) → List (Body E) → Out Bool
  | 0, _ => .diverge
  | fuel + 1, l =>
    match l with
    | [] => .ok true
    | b :: r =>
      if b.tag ≠ subkey then .ok false
      else if version = 3 then .ok false
      else
        match skipSubkeySigs false r with
        | (false, _) => .ok false
        | (true, r) => subkeyLoop subkey version fuel r

/-- `Key::meaningful(pgp)` (Key.cpp:246-412) for the packets of a key of the given kind. -/
def meaningfulBodies (kind : KeyKind) (l : List (Body E)) : Out Bool :=
  match tags kind with
  | none => .ok false
  | some (key, subkey) =>
    if l.length < 2 then .ok false
    else match l with
      | [] => .ok false
      | p :: r =>
        if p.tag ≠ key then .ok false
        else match p.keyPart with
          | none => .ub
          | some k =>
            match skipRevocations r with
            | none => .ok false
            | some r => do
              match ← userLoop (r.length + 1) false r with
              | none => return false
              | some (seen, r) => if !seen then return false else subkeyLoop subkey k.version (r.length + 1) r

/-- `Key::meaningful()`; for `PublicKey` and `SecretKey` objects of the right type this is the same function (Key.cpp:414-416,
560-567, 644-651). -/
def meaningful (k : KeyObj E) : Out Bool := meaningfulBodies k.kind (k.packets.map (·.body))

/-- The public part of one packet in `SecretKey::get_public` (Key.cpp:625-637). The public packets are new objects, with the
default (new) header format; other packets are cloned. -/
def publicPacket (p : Pkt E) : Out (Pkt E) :=
  match p.body with
  | .secretKey t => do let k ← t.getPublic; return ⟨.new, false, .publicKey k⟩
  | .secretSubkey t => do let k ← t.getPublic; return ⟨.new, false, .publicSubkey k⟩
  | _ => .ok p

/-- The loop of `SecretKey::get_public`. -/
def publicPackets : List (Pkt E) → Out (List (Pkt E))
  | [] => .ok []
  | p :: ps => do
    let q ← publicPacket p
    let qs ← publicPackets ps
    return q :: qs

/-- `SecretKey::get_public` (Key.cpp:619-642). -/
def getPublic (k : KeyObj E) : Out (KeyObj E) := do
  let ps ← publicPackets k.packets
  return ⟨.pub, ps⟩

/-- `find_signing_key` (Key.cpp:662-680): the first key packet whose algorithm can sign. -/
def findSigningKey (k : KeyObj E) : Out (Option (Pkt E)) := do
  let good ← k.meaningful
  if !good then return none
  else return k.packets.find? fun p => match p.body.keyPart with
    | some kp => canSign kp.pka
    | none => false

/-- `Key::keyid()` (Key.cpp:81-87). -/
def keyid (cr : Crypto) (k : KeyObj E) : Out Bytes := do
  let good ← k.meaningful
  if !good then .throw
  else match k.packets with
    | p :: _ => match p.body.keyPart with
      | some kp => kp.keyid cr
      | none => .ub
    | [] => .ub

/-- The outcome of `Revoke::check`: an `int` used as a truth value and -1 (revoke.cpp:7-44). -/
inductive Revoked where
  | no | yes | error
  deriving DecidableEq, Repr

/-- `Revoke::check` (revoke.cpp:7-43). -/
def revokeCheck (k : KeyObj E) : Out Revoked := do
  let good ← k.meaningful
  if !good then return .error
  else match k.packets with
    | _ :: p :: _ =>
      match p.body with
      | .sig s => return if s.type = 0x20 then .yes else .error
      | _ =>
        return if k.packets.any fun p => match p.body with
            | .sig s => s.type == 0x28 || s.type == 0x30
            | _ => false
          then .yes else .no
    | _ => .ub

end KeyObj
end OpenPGP
