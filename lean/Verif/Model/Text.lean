import Verif.Base
import Verif.Model.Includes
import Verif.Model.Pkcs1

/-!
# Text: `std::getline`, line ends, dash escaping

`std::getline` on a string stream delivers the lines `getlines`; after the last line it fails. (A stream is modelled by the lines
it still has.)
-/
namespace OpenPGP

/-- The lines `std::getline` delivers. A line feed at the end does not start another line. -/
def getlines : Bytes → List Bytes
  | [] => []
  | c :: s => if c = 10 then [] :: getlines s else
    match getlines s with
    | [] => [[c]]
    | l :: ls => (c :: l) :: ls

/-- `whitespace` (includes.h:20). -/
def isWs (c : UInt8) : Bool := c == 0x20 || c == 0x09 || c == 0x0a || c == 0x0b || c == 0x0c || c == 0x0d

/-- `trim_whitespace(line, false, true)` -/
def rtrim (l : Bytes) : Bytes := trimWhitespace l false true isWs

/-- `trim_whitespace(value, true, true)` -/
def trim (l : Bytes) : Bytes := trimWhitespace l true true isWs

/-- One line with its line end in `text_to_canonical` (sigcalc.cpp:85-91). -/
def canonicalLine (l : Bytes) : Bytes := l ++ (if l.getLast? = some 13 then [] else [13]) ++ [10]

/-- `text_to_canonical` (sigcalc.cpp:75-94). -/
def textToCanonical (data : Bytes) : Bytes := (getlines data).flatMap canonicalLine

/-- `out.substr(0, out.size() - 1)`: nothing is cut off an empty string, for which the length wraps. -/
def chopLast (s : Bytes) : Bytes := s.take (subSz s.length 1)

/-- One line of `dash_escape` (CleartextSignature.cpp:216-220). -/
def escapeLine (l : Bytes) : Bytes := (if l.head? = some 45 then [45, 32] else []) ++ l

/-- One line of `reverse_dash_escape` (CleartextSignature.cpp:231-237). -/
def unescapeLine (l : Bytes) : Bytes := if l.take 2 = [45, 32] then l.drop 2 else l

/-- One line of `data_to_text` (CleartextSignature.cpp:253-258): spaces and tabs at its end are removed. -/
def stripLine (l : Bytes) : Bytes := (l.reverse.dropWhile fun c => c == 0x20 || c == 0x09).reverse

/-- `CleartextSignature::dash_escape` (CleartextSignature.cpp:211-224). -/
def dashEscape (text : Bytes) : Bytes := chopLast ((getlines text).flatMap fun l => escapeLine l ++ [10])

/-- `CleartextSignature::reverse_dash_escape` (CleartextSignature.cpp:226-242). -/
def reverseDashEscape (text : Bytes) : Bytes := chopLast ((getlines text).flatMap fun l => unescapeLine l ++ [10])

/-- `CleartextSignature::data_to_text` (CleartextSignature.cpp:248-263). -/
def dataToText (text : Bytes) : Bytes := chopLast ((getlines text).flatMap fun l => stripLine l ++ [10])

/-- The text that `to_sign_01` hashes in front of the trailer (sigcalc.cpp:101-102): the last line end is cut off, but nothing is
cut off an empty string. -/
def canonicalBody (data : Bytes) : Bytes := (textToCanonical data).take (subSz (textToCanonical data).length 2)

end OpenPGP
