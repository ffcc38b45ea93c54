import Verif.Model.Commands
import Verif.Model.Keygen

/-!
# `valid()` of packets and subpackets, and writing with a status

The maps `NAME` are modelled by the set of their keys.
-/
namespace OpenPGP

/-- `enum Status` (Status.h:30-55). The enumeration is not scoped: `SUCCESS` is 0, and `!status` holds exactly for it. -/
inductive Status where
  | success | invalid | compressionAlgorithm | contents | fingerprint | flag | hashAlgorithm | left16 | length | literalFormat | mpiCount | publicKeyAlgorithm
  | reason | sha1 | signatureType | symmetricAlgorithm | tag | version | missingS2k | pkaCannotBeUsed | regex | reserved | shouldNotBeEmitted | wrongS2kType
  deriving DecidableEq, Repr

/-- The keys of `Compression::NAME` (Compress.h:58-74); `Compression::valid` (Compress.cpp:8-10). -/
def compNamed (a : UInt8) : Bool := decide (a ≤ 3) || decide (100 ≤ a ∧ a ≤ 110)

/-- The keys of `Signature_Type::NAME` (sigtypes.h:161-177); `Signature_Type::valid` (sigtypes.cpp:24-26). -/
def sigTypeNamed (t : UInt8) : Bool := [0x00, 0x01, 0x02, 0x10, 0x11, 0x12, 0x13, 0x18, 0x19, 0x1f, 0x20, 0x28, 0x30, 0x40, 0x50].contains t

/-- The keys of `Literal::NAME` (Tag11.h:84-88); `Literal::valid` (Tag11.cpp:11-13). -/
def literalNamed (f : UInt8) : Bool := f == 0x62 || f == 0x74 || f == 0x75

/-- The keys of `Key_Flags::NAME` (Sub27.h:92-100). -/
def keyFlagNamed (m : UInt8) : Bool := [0x01, 0x02, 0x04, 0x08, 0x10, 0x20, 0x80].contains m

/-- The keys of `Key_Server_Preferences::NAME` (Sub23.h:49-57). -/
def keyServerNamed (m : UInt8) : Bool := m == 0 || m == 0x80

/-- The keys of `Features_Flags::NAME` (Sub30.h:63-69). -/
def featureNamed (m : UInt8) : Bool := m == 0x01

/-- The keys of `Notation::NAME` (Sub20.h:78-87). -/
def notationNamed (m : UInt8) : Bool := m == 0 || m == 0x80

/-- `S2K0::valid`, `S2K1::valid`, `S2K3::valid` (s2k.cpp:99-109, 168-182, 254-268). The type is the one of the class (s2k.cpp:66-74, 120-130, 197-208). -/
def S2K.valid : S2K → Status
  | .simple h => if !hashNamed h then .hashAlgorithm else .success
  | .salted h s => if !hashNamed h then .hashAlgorithm else if s.length ≠ 8 then .length else .success
  | .iterated h s _ => if !hashNamed h then .hashAlgorithm else if s.length ≠ 8 then .length else .success

/-- The loops over the bits of flag octets (Sub23.cpp:22-34, Sub27.cpp:22-34, Sub30.cpp:22-35). -/
def flagsValid (named : UInt8 → Bool) : Bytes → Status
  | [] => .success
  | o :: os =>
    if [1, 2, 4, 8, 16, 32, 64, 128].any fun mask => o &&& mask != 0 && !named mask then .flag else flagsValid named os

/-- `for (char const & c : …) if (NAME.find(c) == NAME.end()) return …` (Sub11.cpp:18-22, Sub20.cpp:33-37, Sub21.cpp:18-22, Sub22.cpp:18-22). -/
def octetsValid (named : UInt8 → Bool) (bad : Status) (s : Bytes) : Status := if s.all named then .success else bad

section
variable {E : Type} (regexOk : Bytes → Bool) (validE : E → Out Status)

/-- `actual_valid` of the subpackets (Sub2.cpp:17, Sub3.cpp:17, Sub4.cpp:17, Sub5.cpp:19, Sub6.cpp:17-27, Sub7.cpp:17, Sub9.cpp:17, Sub10.cpp:15,
Sub11.cpp:17-24, Sub12.cpp:21-35, Sub16.cpp:15-21, Sub20.cpp:29-40, Sub21.cpp:17-24, Sub22.cpp:17-24, Sub23.cpp:22-34, Sub24.cpp:15, Sub25.cpp:17,
Sub26.cpp:20, Sub27.cpp:22-34, Sub28.cpp:15, Sub29.cpp:21-26, Sub30.cpp:22-35, Sub31.cpp:21-35, Sub32.cpp:17-24). `regexOk` says whether `std::regex`
can be constructed. The test of `Sub32` negates the status of the embedded signature. -/
def SubBody.valid : SubBody E → Out Status
  | .regex r => .ok (if regexOk r then .success else .regex)
  | .prefSym s => .ok (octetsValid symNamed .symmetricAlgorithm s)
  | .revKey cls pka f => .ok (if cls &&& 0x80 = 0 then .invalid else if !pkaNamed pka then .publicKeyAlgorithm else if f.length ≠ 20 then .fingerprint else .success)
  | .issuer k => .ok (if k.length ≠ 8 then .length else .success)
  | .notation f _ _ => .ok (if f.length ≠ 4 then .length else octetsValid notationNamed .flag f)
  | .prefHash s => .ok (octetsValid hashNamed .hashAlgorithm s)
  | .prefComp s => .ok (octetsValid compNamed .compressionAlgorithm s)
  | .keyServerPrefs s => .ok (flagsValid keyServerNamed s)
  | .keyFlags s => .ok (flagsValid keyFlagNamed s)
  | .reason c _ => .ok (if !reasonNamed c then .reason else .success)
  | .features s => .ok (flagsValid featureNamed s)
  | .target pka h d =>
    if !pkaNamed pka then .ok .publicKeyAlgorithm
    else if !hashNamed h then .ok .hashAlgorithm
    else do
      let l ← mapAt (hashLen h)
      return if l ≠ d.length then .length else .success
  | .embedded none => .ok .contents
  | .embedded (some e) => do
    let s ← validE e
    return if s = .success then .contents else .success
  | _ => .ok .success

/-- The loops over the subpackets (Tag2.cpp:309-321). -/
def subsValid : List (Sub E) → Out Status
  | [] => .ok .success
  | s :: ss => do
    let st ← s.body.valid regexOk validE
    if st ≠ .success then return st else subsValid ss

/-- `Tag2::actual_valid` (Tag2.cpp:287-354). -/
def Tag2.valid (mpis : Bool) (s : Tag2 E) : Out Status :=
  if s.version ≠ 3 ∧ s.version ≠ 4 then .ok .version
  else if !sigTypeNamed s.type then .ok .signatureType
  else if !pkaNamed s.pka then .ok .publicKeyAlgorithm
  else if !canSign s.pka then .ok .pkaCannotBeUsed
  else if !hashNamed s.hash then .ok .hashAlgorithm
  else do
    let a ← (if s.version = 4 then subsValid regexOk validE s.hashed else .ok .success)
    if a ≠ .success then return a
    else do
      let b ← (if s.version = 4 then subsValid regexOk validE s.unhashed else .ok .success)
      if b ≠ .success then return b
      else if s.left16.length ≠ 2 then return .left16
      else if mpis ∧ s.mpi.length ≠ (if s.pka = 17 then 2 else 1) then return .mpiCount
      else return .success
end

/-- `valid()` of embedded signatures: without the argument the number of MPIs is not looked at (Sub32.cpp:17-24, Tag2.cpp:310, 317). -/
def validAt (regexOk : Bytes → Bool) : (n : Nat) → SigAt n → Out Status
  | 0, e => e.elim
  | n + 1, s => Tag2.valid regexOk (validAt regexOk n) false s

/-- `Tag1::actual_valid` (Tag1.cpp:37-79). -/
def Tag1.valid (mpis : Bool) (t : Tag1) : Status :=
  if t.version ≠ 3 then .version
  else if t.keyid.length ≠ 8 then .length
  else if !pkaNamed t.pka then .publicKeyAlgorithm
  else if !canEncrypt t.pka then .pkaCannotBeUsed
  else if mpis ∧ t.mpi.length ≠ (if t.pka = 16 then 2 else 1) then .mpiCount
  else .success

/-- `Tag3::actual_valid` (Tag3.cpp:55-69). -/
def Tag3.valid (t : Tag3) : Status :=
  if t.version ≠ 4 then .version
  else if !symNamed t.sym then .symmetricAlgorithm
  else match t.s2k with
    | none => .missingS2k
    | some s => s.valid

/-- `Tag4::actual_valid` (Tag4.cpp:29-51). -/
def Tag4.valid (t : Tag4) : Status :=
  if t.version ≠ 3 then .version
  else if !sigTypeNamed t.type then .signatureType
  else if !hashNamed t.hash then .hashAlgorithm
  else if !pkaNamed t.pka then .publicKeyAlgorithm
  else if t.keyid.length ≠ 8 then .length
  else .success

/-- `Tag6::actual_valid` (Tag6.cpp:6-51). -/
def KeyPkt.valid (mpis : Bool) (k : KeyPkt) : Status :=
  if k.version = 3 then
    if !isRSA k.pka then .pkaCannotBeUsed
    else if mpis ∧ k.mpi.length ≠ 2 then .mpiCount
    else .success
  else if k.version = 4 then
    if !pkaNamed k.pka then .publicKeyAlgorithm
    else if mpis ∧ ¬ ((isRSA k.pka ∧ k.mpi.length = 2) ∨ (k.pka = 17 ∧ k.mpi.length = 4) ∨ (k.pka = 16 ∧ k.mpi.length = 3)) then .mpiCount
    else .success
  else .version

/-- `Tag5::actual_valid` (Tag5.cpp:186-210). -/
def Tag5.valid (mpis : Bool) (t : Tag5) : Out Status :=
  if t.key.valid mpis ≠ .success then .ok (t.key.valid mpis)
  else if (t.s2kCon = 254 ∨ t.s2kCon = 255) ∧ t.s2k = none then .ok .missingS2k
  else if ¬ (t.s2kCon = 254 ∨ t.s2kCon = 255) ∧ t.s2kCon ≠ 0 ∧ !symNamed t.sym then .ok .symmetricAlgorithm
  else if t.s2kCon ≠ 0 then do
    let b ← mapAt (blockLen t.sym)
    return if t.iv.length ≠ b then .length else .success
  else .ok .success

/-- `Subpacket::Tag17::Sub1::actual_valid` (Sub1.cpp:35-45). -/
def Attr.valid (a : Attr) : Status := if a.version ≠ 1 then .version else if a.encoding ≠ 1 then .invalid else .success

/-- `Tag17::actual_valid` (Tag17.cpp:43-52). -/
def attrsValid : List Attr → Status
  | [] => .success
  | a :: as => if a.valid ≠ .success then a.valid else attrsValid as

/-- `Tag::valid` (Packet.cpp:135-137) of every packet class (Tag8.cpp:51-57, Tag9.cpp:27-33, Tag10.cpp:21-27, Tag11.cpp:46-52, Tag12.cpp:19-21,
Tag13.cpp:19-21, Tag18.cpp:29-35, Tag19.cpp:19-25, Tag60.cpp:19-21, Tag61.cpp:19-21, Tag62.cpp:19-21, Tag63.cpp:19-21). -/
def Body.valid {E : Type} (regexOk : Bytes → Bool) (validE : E → Out Status) (mpis : Bool) : Body E → Out Status
  | .pkesk t => .ok (t.valid mpis)
  | .sig s => s.valid regexOk validE mpis
  | .skesk t => .ok t.valid
  | .onePass t => .ok t.valid
  | .secretKey t => t.valid mpis
  | .publicKey k => .ok (k.valid mpis)
  | .secretSubkey t => t.valid mpis
  | .compressed c _ => .ok (if !compNamed c then .compressionAlgorithm else .success)
  | .symEnc d => .ok (if d.length < 2 then .length else .success)
  | .marker m => .ok (if m ≠ ascii "PGP" then .contents else .success)
  | .literal t => .ok (if !literalNamed t.format then .literalFormat else .success)
  | .trust _ => .ok .shouldNotBeEmitted
  | .userId _ => .ok .success
  | .publicSubkey k => .ok (k.valid mpis)
  | .userAttr l => .ok (attrsValid l)
  | .seip v _ => .ok (if v ≠ 1 then .version else .success)
  | .mdc h => .ok (if h.length ≠ 20 then .sha1 else .success)
  | .priv _ _ => .ok .success

/-- `Status * status`: the argument of the writing functions and, for a pointer that is not null, what it points to. -/
abbrev StatusArg := Option Status

section
variable {E : Type} (rawE : E → Bytes) (check : Body E → Out Status)

/-- `PGP::raw(status, check_mpi)` (PGP.cpp:501-511); `check` is `valid(check_mpi)`. -/
def rawChecked : StatusArg → Bytes → List (Pkt E) → Out (StatusArg × Bytes)
  | st, out, [] => .ok (st, out)
  | none, out, p :: ps => do
    let w ← Pkt.write rawE p
    rawChecked none (out ++ w) ps
  | some _, out, p :: ps => do
    let s ← check p.body
    if s ≠ .success then return (some s, [])
    else do
      let w ← Pkt.write rawE p
      rawChecked (some s) (out ++ w) ps

/-- Whether a failure is reported: `status && (*status != Status::SUCCESS)`. -/
def StatusArg.failed (st : StatusArg) : Bool := st != none && st != some .success

/-- `PGP::write(armor, status, check_mpi)` (PGP.cpp:513-530). -/
def writeChecked (st : StatusArg) (o : PgpObj (Pkt E)) (mode : ArmorMode) : Out (StatusArg × Bytes) := do
  let (s, d) ← rawChecked rawE check st [] o.packets
  if s.failed then return (s, [])
  else do
    let t ← pgpWrite o mode d
    return (s, t)

/-- `Message::raw(status, check_mpi)` (Message.cpp:228-240). -/
def msgRawChecked (z : Zip) (st : StatusArg) (m : Msg E) : Out (StatusArg × Bytes) := do
  let (s, d) ← rawChecked rawE check st [] m.packets
  if s.failed then return (s, [])
  else match m.comp with
    | none => return (s, d)
    | some (fmt, part, alg) => do
      let c ← compress z alg d
      let w ← Pkt.write rawE ⟨fmt, part, .compressed alg c⟩
      return (s, w)

/-- `CleartextSignature::write(status, check_mpi)` (CleartextSignature.cpp:144-160). -/
def cleartextWriteChecked (st : StatusArg) (o : Cleartext (Pkt E)) : Out (StatusArg × Bytes) := do
  let (s, t) ← writeChecked rawE check st o.sig .yes
  return (s, beginSigned ++ [10] ++ o.headers.flatMap (fun k => k.1 ++ ascii ": " ++ k.2 ++ [10]) ++ [10] ++ dashEscape o.message ++ [10] ++ t)
end

end OpenPGP
