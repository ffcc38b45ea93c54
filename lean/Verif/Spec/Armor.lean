import Verif.Model.Armor

/-!
# RFC 4880 6.2: the lines of ASCII armored data
-/
namespace OpenPGP.Rfc

/-- What follows BEGIN PGP in the armor header line; the numbers are those of `PGP::Type_t`. -/
def armorLabel : Nat → String
  | 1 => "MESSAGE"
  | 2 => "PUBLIC KEY BLOCK"
  | 3 => "PRIVATE KEY BLOCK"
  | 4 => "MESSAGE, PART X/Y"
  | 5 => "MESSAGE, PART X"
  | 6 => "SIGNATURE"
  | _ => "SIGNED MESSAGE"

/-- Armor header line, armor headers, a blank line, the data in radix-64, the checksum and the armor tail. -/
def armorLines (t : Nat) (headers : List (Bytes × Bytes)) (body : List Bytes) (chk : Bytes) : List Bytes :=
  [ascii "-----BEGIN PGP " ++ ascii (armorLabel t) ++ ascii "-----"] ++
  headers.map (fun h => h.1 ++ ascii ": " ++ h.2) ++
  [[]] ++
  body ++
  [ascii "=" ++ chk] ++
  [ascii "-----END PGP " ++ ascii (armorLabel t) ++ ascii "-----"]

/-- White space. -/
def isWhite (c : UInt8) : Prop := c ∈ ascii " \t\n\x0b\x0c\r"

/-- An armor header: no colon in the key, a value that does not begin or end with white space, all in one line. -/
structure goodHeader (h : Bytes × Bytes) : Prop where
  colon : 58 ∉ h.1
  key : 10 ∉ h.1
  value : 10 ∉ h.2
  nonempty : h.2 ≠ []
  front : ∀ c, h.2.head? = some c → ¬ isWhite c
  back : ∀ c, h.2.getLast? = some c → ¬ isWhite c

end OpenPGP.Rfc
