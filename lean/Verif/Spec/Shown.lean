import Verif.Model.Packets
import Verif.Model.Pkcs1

/-!
# Packets that a text can show completely
-/
namespace OpenPGP.Shown
variable {E : Type}

/-- Nothing in the subpacket is left out of the text or mixed up in it: there is one octet of flags, and a reason with the number 0 has no text. -/
def WholeSub (wholeE : E → Prop) : SubBody E → Prop
  | .sigTime t => t < 2 ^ 32
  | .sigExpire t => t < 2 ^ 32
  | .keyExpire t => t < 2 ^ 32
  | .keyServerPrefs s => s.length = 1
  | .keyFlags s => s.length = 1
  | .features s => s.length = 1
  | .reason c w => c = 0 → w = []
  | .embedded (some e) => wholeE e
  | _ => True

/-- A signature of version 2, 3 or 4 by RSA or DSA with the right number of values; time and key ID are fields of the old versions, subpackets of version 4. -/
def WholeSig (wholeE : E → Prop) (s : Tag2 E) : Prop :=
  (s.version = 4 ∧ s.time = 0 ∧ s.keyid = [] ∨ s.version < 4 ∧ s.time < 2 ^ 32 ∧ s.hashed = [] ∧ s.unhashed = []) ∧ (s.pka ∈ [1, 2, 3] ∧ s.mpi.length = 1 ∨ s.pka = 17 ∧ s.mpi.length = 2) ∧ ∀ x ∈ s.hashed ++ s.unhashed, WholeSub wholeE x.body

/-- The same for signatures with signatures embedded up to `n` deep. -/
def WholeSigAt : (n : Nat) → SigAt n → Prop
  | 0, e => e.elim
  | n + 1, s => WholeSig (WholeSigAt n) s

/-- A key with the right number of values for its version and algorithm. -/
def WholeKey (k : KeyPkt) : Prop :=
  k.time < 2 ^ 32 ∧
    (k.version < 4 ∧ k.mpi.length = 2 ∨
     k.version = 4 ∧ k.expire = 0 ∧ (k.pka ∈ [1, 2, 3] ∧ k.mpi.length = 2 ∨ k.pka = 16 ∧ k.mpi.length = 3 ∨ k.pka = 17 ∧ k.mpi.length = 4))

/-- A secret key that is protected with a salted specifier. -/
def WholeProtected (t : Tag5) : Prop := (t.s2kCon = 254 ∨ t.s2kCon = 255) ∧ ((∃ h s, t.s2k = some (.salted h s)) ∨ ∃ h s c, t.s2k = some (.iterated h s c))

/-- A secret key without protection, with the right number of values for its algorithm and two octets behind them. -/
def WholeOpen (t : Tag5) : Prop :=
  t.s2kCon = 0 ∧ t.sym = 0 ∧ t.s2k = none ∧ t.iv = [] ∧ ∃ (ms : List Nat) (sum : Bytes), t.secret = writeMPIs ms ++ sum ∧ sum.length = 2 ∧ (∀ m ∈ ms, bitsize m ≤ 65528) ∧
    (t.key.pka ∈ [1, 2, 3] ∧ ms.length = 4 ∨ (t.key.pka = 16 ∨ t.key.pka = 17) ∧ ms.length = 1)

def WholeSecret (t : Tag5) : Prop := WholeKey t.key ∧ (WholeProtected t ∨ WholeOpen t)

/-- Packets of which everything is shown. Compressed packets and images are not among them. -/
def Whole (wholeE : E → Prop) : Body E → Prop
  | .pkesk t => t.pka ∈ [1, 2, 3] ∧ t.mpi.length = 1 ∨ t.pka = 16 ∧ t.mpi.length = 2
  | .sig s => WholeSig wholeE s
  | .secretKey t => WholeSecret t
  | .secretSubkey t => WholeSecret t
  | .publicKey k => WholeKey k
  | .publicSubkey k => WholeKey k
  | .compressed _ _ => False
  | .userAttr _ => False
  | .literal t => t.time < 2 ^ 32 ∧ t.format ∈ [0x62, 0x74, 0x75]
  | _ => True

/-- The text of the subpacket is on one line. -/
def OneLineSub (lineE : E → Prop) : SubBody E → Prop
  | .regex r => 10 ∉ r
  | .placeholder s => 10 ∉ s ∧ s.head? ≠ some 32
  | .revKey _ _ f => 10 ∉ f
  | .notation _ m n => 10 ∉ m ∧ 10 ∉ n
  | .prefKeyServer s => 10 ∉ s
  | .policy s => 10 ∉ s
  | .signer s => 10 ∉ s
  | .reason _ w => 10 ∉ w
  | .embedded (some e) => lineE e
  | _ => True

def OneLineSig (lineE : E → Prop) (s : Tag2 E) : Prop := ∀ x ∈ s.hashed ++ s.unhashed, OneLineSub lineE x.body

def OneLineSigAt : (n : Nat) → SigAt n → Prop
  | 0, e => e.elim
  | n + 1, s => OneLineSig (OneLineSigAt n) s

/-- Each text in the packet is on one line, and where it stands alone on a line, it does not begin with a space. -/
def OneLine (lineE : E → Prop) : Body E → Prop
  | .sig s => OneLineSig lineE s
  | .secretKey t => t.key.version = 4
  | .secretSubkey t => t.key.version = 4
  | .publicKey k => k.version = 4
  | .publicSubkey k => k.version = 4
  | .marker m => 10 ∉ m ∧ m.head? ≠ some 32
  | .literal t => 10 ∉ t.filename ∧ 10 ∉ t.literal
  | .trust t => 10 ∉ t
  | .userId u => 10 ∉ u
  | .mdc h => 10 ∉ h
  | _ => True

/-- What a text for times must be like. -/
structure Times (time : Nat → Bytes) : Prop where
  inj : ∀ a b, a < 2 ^ 32 → b < 2 ^ 32 → time a = time b → a = b
  never : ∀ a, time a ≠ ascii "Never"
  line : ∀ a, 10 ∉ time a

end OpenPGP.Shown
