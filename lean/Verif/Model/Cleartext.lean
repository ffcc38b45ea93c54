import Verif.Model.Armor

/-!
# `src/CleartextSignature.cpp`

`std::getline` at the end of the stream leaves the string as it is when the last line had no line feed (the stream is at its end
already), and empties it otherwise; `atEnd` is that function.
-/
namespace OpenPGP

/-- A `CleartextSignature` object (CleartextSignature.h:63-67). -/
structure Cleartext (α : Type) where
  headers : List (Bytes × Bytes)
  message : Bytes
  sig : PgpObj α
  deriving DecidableEq, Repr

/-- `CleartextSignature::CleartextSignature()` (CleartextSignature.cpp:10-14) with `DetachedSignature()` (DetachedSignature.cpp:5-9). -/
def Cleartext.fresh {α : Type} : Cleartext α := ⟨[], [], { PgpObj.fresh with type := 6 }⟩

/-- `BEGIN_PGP_SIGNED_MESSAGE` (CleartextSignature.cpp:54). -/
def beginSigned : Bytes := armorBegin ++ ascii "SIGNED MESSAGE" ++ dashes5

/-- `BEGIN_PGP_SIGNATURE` (CleartextSignature.cpp:102). -/
def beginSignature : Bytes := armorBegin ++ ascii "SIGNATURE" ++ dashes5

/-- `END_PGP_SIGNATURE` (CleartextSignature.cpp:119). -/
def endSignature : Bytes := armorEnd ++ ascii "SIGNATURE" ++ dashes5

/-- What a failing `std::getline` leaves. -/
def atEnd (data line : Bytes) : Bytes := if data.getLast? = some 10 then [] else line

/-- The search for the cleartext header (CleartextSignature.cpp:55-63): the line and the lines behind it. -/
def findSigned : List Bytes → Option (Bytes × List Bytes)
  | [] => none
  | l :: ls => if (rtrim l).take beginSigned.length = beginSigned then some (rtrim l, ls) else findSigned ls

/-- The loop over hash headers (CleartextSignature.cpp:72-96): headers, the value of `line`, and the lines left. -/
def hashHeaders (stop : Bytes → Bytes) : (line : Bytes) → List Bytes → List (Bytes × Bytes) × Bytes × List Bytes
  | line, [] => ([], stop line, [])
  | _, l :: ls =>
    if rtrim l = [] then ([], [], ls)
    else
      let r := hashHeaders stop (rtrim l) ls
      match armorKey (rtrim l) with
      | none => r
      | some k => (k :: r.1, r.2)

/-- The loops over message lines and signature lines (CleartextSignature.cpp:104-113, 121-130), which end at a line that starts with `e`:
the lines with line feeds, the value of `line`, and the lines left. -/
def linesUntil (stop : Bytes → Bytes) (e : Bytes) : (acc line : Bytes) → List Bytes → Bytes × Bytes × List Bytes
  | acc, line, [] => (acc, stop line, [])
  | acc, _, l :: ls =>
    if (rtrim l).take e.length = e then (acc, rtrim l, ls)
    else linesUntil stop e (acc ++ rtrim l ++ [10]) (rtrim l) ls

/-- `CleartextSignature::read` (CleartextSignature.cpp:51-134) into an object. -/
def cleartextRead {α : Type} (parse : Nat → Fmt → Span → Out α) (o : Cleartext α) (data : Bytes) : Out (Cleartext α) :=
  match findSigned (getlines data) with
  | none => .throw
  | some (line, ls) =>
    let (keys, line, ls) := hashHeaders (atEnd data) line ls
    let (message, line, ls) := linesUntil (atEnd data) beginSignature [] line ls
    let (text, line, _) := linesUntil (atEnd data) endSignature (line ++ [10]) line ls
    do
      let sig ← pgpRead parse o.sig (text ++ line)
      return ⟨o.headers ++ keys, reverseDashEscape (chopLast message), sig⟩

/-- `CleartextSignature::CleartextSignature(data)` (CleartextSignature.cpp:24-33) with `DetachedSignature::meaningful`
(DetachedSignature.cpp:45-67): type SIGNATURE and one packet. -/
def cleartextOf {α : Type} (parse : Nat → Fmt → Span → Out α) (data : Bytes) : Out (Cleartext α) := do
  let c ← cleartextRead parse .fresh data
  if c.sig.type = 6 ∧ c.sig.packets.length = 1 then return c else .throw

/-- `CleartextSignature::write` (CleartextSignature.cpp:144-160) with the octets of the signature packets. -/
def cleartextWrite {α : Type} (o : Cleartext α) (octets : Bytes) : Out Bytes := do
  let s ← pgpWrite o.sig .yes octets
  return beginSigned ++ [10] ++ o.headers.flatMap (fun k => k.1 ++ ascii ": " ++ k.2 ++ [10]) ++ [10] ++ dashEscape o.message ++
    [10] ++ s

end OpenPGP
