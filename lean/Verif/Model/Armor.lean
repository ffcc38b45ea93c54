import Verif.Model.Text
import Verif.Model.Radix64
import Verif.Model.Crc24
import Verif.Model.Framing

/-!
# ASCII armor: `PGP::read`, `PGP::write` (`src/PGP.cpp`)

A stream is the lines `std::getline` still delivers (`getlines`). Warnings on `std::cerr` have no effect and are left out, and so is
the `Status` argument of `write` (a null pointer in every call inside the library).
-/
namespace OpenPGP

/-- `ASCII_Armor_5_Dashes` (PGP.cpp:23). -/
def dashes5 : Bytes := ascii "-----"

/-- `ASCII_Armor_Begin` (PGP.cpp:24). -/
def armorBegin : Bytes := dashes5 ++ ascii "BEGIN PGP "

/-- `ASCII_Armor_End` (PGP.cpp:54). -/
def armorEnd : Bytes := dashes5 ++ ascii "END PGP "

/-- `ASCII_Armor_Header` (PGP.cpp:25-34), indexed by the types of PGP.cpp:14-21. -/
def armorHeaders : List Bytes :=
  [ascii "", ascii "MESSAGE", ascii "PUBLIC KEY BLOCK", ascii "PRIVATE KEY BLOCK", ascii "MESSAGE, PART X/Y", ascii "MESSAGE, PART X",
   ascii "SIGNATURE", ascii "SIGNED MESSAGE"]

/-- A `PGP` object (PGP.h:64-70). -/
structure PgpObj (α : Type) where
  armored : Bool
  type : Nat
  keys : List (Bytes × Bytes)
  packets : List α
  deriving DecidableEq, Repr

/-- `PGP::PGP()` (PGP.cpp:300-305). -/
def PgpObj.fresh {α : Type} : PgpObj α := ⟨true, 0, [], []⟩

/-- The search for the armor header (PGP.cpp:360-367): the header line and the lines behind it. -/
def findBegin : List Bytes → Option (Bytes × List Bytes)
  | [] => none
  | l :: ls => if (rtrim l).take armorBegin.length = armorBegin then some (rtrim l, ls) else findBegin ls

/-- The loop over the types (PGP.cpp:382-386), counting from `t`; it stops at `SIGNED_MESSAGE`. -/
def armorType (line : Bytes) : (t : Nat) → List Bytes → Nat
  | t, [] => t
  | t, h :: hs => if armorBegin ++ h ++ dashes5 = line then t else armorType line (t + 1) hs

/-- One armor header line (PGP.cpp:403-425): the key is what comes before the first ':', a line without ':' or with nothing behind it
is discarded. -/
def armorKey (line : Bytes) : Option (Bytes × Bytes) :=
  match line.dropWhile (· != 58) with
  | [] => none
  | _ :: v => if v = [] then none else some (line.takeWhile (· != 58), trim v)

/-- The loop over armor headers (PGP.cpp:394-426): the keys and the lines behind the blank line. -/
def armorKeys : List Bytes → List (Bytes × Bytes) × List Bytes
  | [] => ([], [])
  | l :: ls =>
    if rtrim l = [] then ([], ls)
    else
      let r := armorKeys ls
      match armorKey (rtrim l) with
      | none => r
      | some k => (k :: r.1, r.2)

/-- The loop over the body (PGP.cpp:431-449) with the body and checksum line so far. -/
def armorBody : (body chk : Bytes) → List Bytes → Bytes × Bytes
  | body, chk, [] => (body, chk)
  | body, chk, l :: ls =>
    if (rtrim l).head? = some 61 then armorBody body (rtrim l) ls
    else if (rtrim l).take armorEnd.length = armorEnd then (body, chk)
    else armorBody (body ++ rtrim l) chk ls

/-- The octets of the body (PGP.cpp:451-463). A wrong checksum is only reported, but it has to be decoded. -/
def armorDecode (body chk : Bytes) : Out Bytes :=
  if chk ≠ [] then do
    let _ ← radix642ascii (chk.drop 1)
    radix642ascii body
  else radix642ascii body

/-- `PGP::read` (PGP.cpp:333-467) into an object. Armor headers are appended to those the object has. -/
def pgpRead {α : Type} (body : Nat → Fmt → Span → Out α) (o : PgpObj α) (data : Bytes) : Out (PgpObj α) :=
  match findBegin (getlines data) with
  | none => do
    let ps ← readRaw body data
    return ⟨false, 0, o.keys, ps⟩
  | some (line, rest) =>
    let t := armorType line 1 ((armorHeaders.drop 1).take 6)
    if t = 7 then .throw
    else do
      let (keys, rest) := armorKeys rest
      let (b, chk) := armorBody [] [] rest
      let d ← armorDecode b chk
      let ps ← readRaw body d
      return ⟨true, t, o.keys ++ keys, ps⟩

/-- `PGP::format_string` (PGP.cpp:290-298) for `line_length > 0`. The index is an `unsigned int`; strings of 2^32 octets and more are not
modelled. Structural on the fuel, which starts as the length. -/
def formatLoop (n : Nat) : (fuel : Nat) → Bytes → Bytes
  | 0, _ => []
  | _, [] => []
  | f + 1, data => data.take n ++ [10] ++ formatLoop n f (data.drop n)

/-- `PGP::format_string`. -/
def formatString (data : Bytes) (n : Nat) : Bytes := formatLoop n data.length data

/-- `PGP::Armored` (PGP.h:57-62). -/
inductive ArmorMode where
  | default | yes | no
  deriving DecidableEq, Repr

/-- The armored form (PGP.cpp:524-529, Message.cpp:259-266). `type` is an index into `ASCII_Armor_Header`. -/
def armorText (type : Nat) (keys : List (Bytes × Bytes)) (octets : Bytes) : Out Bytes :=
  match armorHeaders[type]? with
  | none => .ub
  | some h => do
    let c ← unhexlify (makehex (crc24 octets).toNat 6 false)
    return armorBegin ++ h ++ dashes5 ++ [10] ++ keys.flatMap (fun k => k.1 ++ ascii ": " ++ k.2 ++ [10]) ++ [10] ++
      formatString (ascii2radix64 octets) 64 ++ [61] ++ ascii2radix64 c ++ [10] ++ armorEnd ++ h ++ dashes5

/-- `PGP::write` (PGP.cpp:513-530) of an object whose packets are written as `octets`. -/
def pgpWrite {α : Type} (o : PgpObj α) (mode : ArmorMode) (octets : Bytes) : Out Bytes :=
  if mode = .no ∨ (mode = .default ∧ o.armored = false) then .ok octets
  else armorText o.type o.keys octets

end OpenPGP
