import Verif.Model.Show
import Verif.Model.Key
import Verif.Model.Cleartext
import Verif.Model.Text

/-!
# Listing a key, `Key::list_keys`, and `CleartextSignature::show`

`show_date` (pgptime.cpp:31-38, which uses `gmtime`) is a parameter. The width that `std::setw` sets holds for the next thing written.
-/
namespace OpenPGP
variable {E : Type}

/-- `std::setfill(' ') << std::setw(w) << s`. -/
def padded (w : Nat) (s : Bytes) : Bytes := List.replicate (w - s.length) 32 ++ s

/-- `Key::Public_Key_Type` (Key.cpp:8-13). -/
def keyTypeName : Body E → Bytes
  | .secretKey _ => ascii "sec"
  | .publicKey _ => ascii "pub"
  | .secretSubkey _ => ascii "ssb"
  | _ => ascii "sub"

/-- `PKA::SHORT` (PKAs.h:152-163): `at` throws for other algorithms. -/
def pkaShort (pka : UInt8) : Out UInt8 :=
  if isRSA pka then .ok 82 else if pka = 16 then .ok 103 else if pka = 17 then .ok 68 else .throw

/-- `Signature_Type::is_revocation` (sigtypes.cpp:18-22). -/
def isRevocationType (t : UInt8) : Bool := t == 0x20 || t == 0x28 || t == 0x30

/-- A key or subkey (Key.cpp:118-129) without the line feed in front of subkeys. -/
def listKeyPkt (cr : Crypto) (date : Nat → Bytes) (indent : Bytes) (name : Bytes) (k : KeyPkt) : Out Bytes := do
  let n ← vecAt k.mpi 0
  let c ← pkaShort k.pka
  let id ← k.keyid cr
  let short ← substr id 4 4
  return indent ++ name ++ ascii "  " ++ padded 4 (dec (bitsize n)) ++ indent ++ [c] ++ ascii "/" ++ indent ++ hexlify short ++ ascii " " ++ indent ++ date k.time

/-- A signature (Key.cpp:143-186) with the line feed behind it: a missing time leaves a width of ten for the next thing written. -/
def listSig (date : Nat → Bytes) (indent : Bytes) (s : Tag2 E) : Out Bytes := do
  let times ← s.getTimes
  let id ← s.getKeyid
  let short ← substr id 4 4
  let what := if isRevocationType s.type then ascii "revok" else if s.type = 0x18 then ascii "sbind" else ascii " sig "
  return indent ++ ascii "sig " ++ what ++ ascii "  " ++ hexlify short ++ (if times.1 ≠ 0 then ascii " " ++ date times.1 else []) ++
    (if times.2.1 ≠ 0 then ascii " " ++ date times.2.1 ++ ascii " " else ascii " " ++ padded 10 (ascii " ")) ++
    (if times.2.2 ≠ 0 then date times.2.2 ++ [10] else padded 10 [10])

/-- One packet (Key.cpp:117-191). -/
def listPacket (cr : Crypto) (date : Nat → Bytes) (indent : Bytes) (b : Body E) : Out Bytes :=
  match b with
  | .secretKey t => do let l ← listKeyPkt cr date indent (keyTypeName b) t.key; return l ++ [10]
  | .publicKey k => do let l ← listKeyPkt cr date indent (keyTypeName b) k; return l ++ [10]
  | .secretSubkey t => do let l ← listKeyPkt cr date indent (keyTypeName b) t.key; return [10] ++ l ++ [10]
  | .publicSubkey k => do let l ← listKeyPkt cr date indent (keyTypeName b) k; return [10] ++ l ++ [10]
  | .userId u => .ok ([10] ++ indent ++ ascii "uid " ++ u ++ [10])
  | .userAttr as => .ok ((as.flatMap fun a => [10] ++ indent ++ ascii "att  att  [jpeg image of size " ++ dec a.image.length ++ ascii "]") ++ [10])
  | .sig s => listSig date indent s
  | _ => .ok [10]

/-- The loop (Key.cpp:116-192). -/
def listPackets (cr : Crypto) (date : Nat → Bytes) (indent : Bytes) : List (Pkt E) → Out Bytes
  | [] => .ok []
  | p :: ps => do
    let l ← listPacket cr date indent p.body
    let ls ← listPackets cr date indent ps
    return l ++ ls

/-- `Key::list_keys` (Key.cpp:106-191). -/
def listKeys (cr : Crypto) (date : Nat → Bytes) (k : KeyObj E) (indents indentSize : Nat) : Out Bytes := do
  let good ← k.meaningful
  if !good then return []
  else listPackets cr date (List.replicate (indents * indentSize) 32) k.packets

/-- `CleartextSignature::show` (CleartextSignature.cpp:136-142); image files that are written are left out. -/
def showCleartext (f : Pkt E → Out (List Act)) (o : Cleartext (Pkt E)) (indents indentSize : Nat) : Out Bytes := do
  let s ← showText f o.sig.packets (indents + 1) indentSize
  return List.replicate (indents * indentSize) 32 ++ ascii "Message:\n" ++ dashEscape o.message ++ ascii "Signature:\n" ++ s.1

end OpenPGP
