import Mathlib.Data.Nat.Digits.Defs
import Verif.Model.Mpi
import Verif.Model.Rng
import Verif.Model.Cli

/-!
# The rest of `src/common/includes.cpp` and of the conversions in `src/Misc/mpi.cpp`, on the characters themselves

`Verif/Model/Includes.lean` has strings of `'0'` and `'1'` as lists of truth values; here they are strings of characters, so that what happens
to other characters can be said. Indices of type `unsigned int` are taken not to wrap (strings shorter than 2^29 octets).
-/
namespace OpenPGP

/-- `binify(unsigned char)` (includes.cpp:85-93): the last `n` characters of the string. The loop stops when `c` is zero, which leaves the
`'0'` fill. -/
def binifyChar (c : UInt8) : Nat → Bytes
  | 0 => []
  | n + 1 => binifyChar (c >>> 1) n ++ [if c &&& 1 = 1 then 49 else 48]

/-- `binify(string, size)` (includes.cpp:70-83). -/
def binify (s : Bytes) (size : Nat := 0) : Bytes :=
  let out := s.flatMap fun c => binifyChar c 8
  if out.length < size then List.replicate (size - out.length) 48 ++ out else out

/-- The octet made of eight characters (includes.cpp:103-106). -/
def unbinifyChars (l : Bytes) : UInt8 := l.foldl (fun c b => (c <<< 1) + (if b = 49 then 1 else 0)) 0

/-- The loop of `unbinify` (includes.cpp:102-108). -/
def unbinifyText : Bytes → Bytes
  | a :: b :: c :: d :: e :: f :: g :: h :: r => unbinifyChars [a, b, c, d, e, f, g, h] :: unbinifyText r
  | _ => []

/-- `unbinify(string)` (includes.cpp:96-111). -/
def unbinifyStr (s : Bytes) : Out Bytes := if s.length % 8 ≠ 0 then .throw else .ok (unbinifyText s)

/-- The value of four characters (includes.cpp:55-58). -/
def nibbleOf (l : Bytes) : UInt8 := l.foldl (fun c b => (c <<< 1) ||| (if b = 49 then 1 else 0)) 0

/-- The loop of `bintohex` (includes.cpp:54-66). -/
def bintohexLoop (caps : Bool) : Bytes → Bytes
  | a :: b :: c :: d :: r => hexDigit caps (nibbleOf [a, b, c, d]).toNat :: bintohexLoop caps r
  | _ => []

/-- `bintohex` (includes.cpp:49-68). -/
def bintohex (s : Bytes) (caps : Bool := false) : Out Bytes := if s.length % 4 ≠ 0 then .throw else .ok (bintohexLoop caps s)

/-- The loop of `little_end` (includes.cpp:40-42), in steps of `s` characters; `t` is the string made so far. -/
def littleEndLoop (s : Nat) : (fuel : Nat) → (rest t : Bytes) → Bytes
  | 0, _, t => t
  | f + 1, rest, t => if rest = [] then t else littleEndLoop s f (rest.drop s) (rest.take s ++ t)

/-- `little_end` (includes.cpp:36-46). -/
def littleEnd (str : Bytes) (base : Nat := 16) : Out Bytes :=
  let s := 8 * (base == 2).toNat + 2 * (base == 16).toNat + (base == 256).toNat
  if s ≠ 0 then .ok (littleEndLoop s str.length str []) else .throw

/-- The loop of `ROL` over the characters and the statement behind it (includes.cpp:201-204); `top` are the bits for the end. -/
def rolLoop (push pull : UInt8) (top : UInt8) : Bytes → Bytes
  | a :: b :: r => ((a <<< push) ||| ((b >>> pull) &&& ((1 <<< push) - 1))) :: rolLoop push pull top (b :: r)
  | [a] => [(a <<< push) ||| top]
  | [] => []

/-- `ROL(string, bits)` (includes.cpp:191-209). `out[0]` of an empty string is its terminator, `out.back()` of an empty string is undefined. -/
def rolStr (str : Bytes) (bits : Nat) : Out Bytes :=
  if str = [] then .ok []
  else do
    let out ← substr (str ++ str) (bits / 8) str.length
    if bits % 8 = 0 then return out
    else
      let push := UInt8.ofNat (bits % 8)
      let pull := 8 - push
      match out with
      | [] => .ub
      | a :: _ => return rolLoop push pull ((a >>> pull) &&& ((1 <<< push) - 1)) out

/-- `toint(s, 2)` (includes.cpp:7-14): the loop is left at the first other character. -/
def toint2 : (value : Nat) → Bytes → Nat
  | v, [] => v
  | v, c :: cs => if c ≠ 48 ∧ c ≠ 49 then v else toint2 ((v * 2 + (c.toNat - 48)) % 2 ^ 64) cs

/-- A digit of `stream >> n` in base 8, 10 or 16 (libstdc++). -/
def streamDigit (base : Nat) (c : UInt8) : Option Nat :=
  match hexValue c with
  | some d => if d < base then some d else none
  | none => none

/-- The digits in front of the string. -/
def streamDigits (base : Nat) : (acc : Nat) → Bytes → Nat
  | acc, [] => acc
  | acc, c :: cs => match streamDigit base c with
    | some d => streamDigits base (base * acc + d) cs
    | none => acc

/-- `std::stringstream(s) >> value` for a `uint64_t` in base 8, 10 or 16 (includes.cpp:16, 19, 22; libstdc++, C locale): white space, a sign, `0x`
in base 16, digits. Without digits the value is zero; the greatest number stands for one that does not fit. -/
def streamNumber (base : Nat) (s : Bytes) : Nat :=
  let s := s.dropWhile Cli.Module.isSpace
  let neg := s.head? = some 45
  let s := if s.head? = some 45 ∨ s.head? = some 43 then s.drop 1 else s
  let s := if base = 16 ∧ s.head? = some 48 ∧ (s[1]? = some 120 ∨ s[1]? = some 88) then s.drop 2 else s
  let n := streamDigits base 0 s
  if n < 2 ^ 64 then (if neg then (2 ^ 64 - n) % 2 ^ 64 else n) else 2 ^ 64 - 1

/-- The loop of `toint(s, 256)` (includes.cpp:25-27). -/
def tointOctets : (value : Nat) → Bytes → Nat
  | v, [] => v
  | v, c :: cs => tointOctets ((v * 256 % 2 ^ 64) ||| c.toNat) cs

/-- `toint(s, base)` (includes.cpp:3-34). -/
def toint (s : Bytes) (base : Int := 10) : Out Nat :=
  if base = 2 then .ok (toint2 0 s)
  else if base = 8 then .ok (streamNumber 8 s)
  else if base = 10 then .ok (streamNumber 10 s)
  else if base = 16 then .ok (streamNumber 16 s)
  else if base = 256 then .ok (tointOctets 0 s)
  else .throw

/-- `src.find_first_not_of(ws)` from a position on; `none` is `npos` (includes.cpp:249). -/
def findFirstNot (ws : UInt8 → Bool) : Bytes → Option Nat
  | [] => none
  | c :: cs => if ws c then (findFirstNot ws cs).map (· + 1) else some 0

/-- `src.find_last_not_of(ws)`; `none` is `npos` (includes.cpp:258). -/
def findLastNot (ws : UInt8 → Bool) (s : Bytes) : Option Nat := (findFirstNot ws s.reverse).map (s.length - 1 - ·)

/-- `trim_whitespace` (includes.cpp:242-266), with its positions of type `std::size_t`; `npos` is -1. -/
def trimWhitespaceAt (src : Bytes) (front back : Bool) (ws : UInt8 → Bool) : Out Bytes :=
  if src = [] then .ok src
  else
    match (if front then findFirstNot ws src else some 0) with
    | none => .ok []
    | some f =>
      let b := if back then (findLastNot ws src).getD (2 ^ 64 - 1) else src.length
      substr src f ((subSz b f + 1) % 2 ^ 64)

/-- `MPI::get_str(base)` (GMP): no leading zeros, `"0"` for zero. -/
def getStr (base a : Nat) : Bytes := if a = 0 then [48] else ((Nat.digits base a).reverse).map (hexDigit false)

/-- One digit of `mpz_class(s, base)`. -/
def mpzStep (base : Nat) (acc : Out Nat) (c : UInt8) : Out Nat := do
  let a ← acc
  match streamDigit base c with
  | none => .throw
  | some d => .ok (a * base + d)

/-- `mpz_class(s, base)` for a base up to 16 (GMP): anything but digits makes the constructor throw. GMP's tolerance for white space and a sign is
not modelled. -/
def mpzOfStr (base : Nat) (s : Bytes) : Out Nat := if s = [] then .throw else s.foldl (mpzStep base) (.ok 0)

/-- `dectompi` (mpi.cpp:13-15). -/
def dectompi (s : Bytes) : Out Nat := mpzOfStr 10 s

/-- `bintompi` (mpi.cpp:17-19). -/
def bintompi (s : Bytes) : Out Nat := mpzOfStr 2 s

/-- `mpitodec` (mpi.cpp:33-35). -/
def mpitodec (a : Nat) : Bytes := getStr 10 a

/-- `mpitobin` (mpi.cpp:37-39). -/
def mpitobin (a : Nat) : Bytes := getStr 2 a

/-- `mpitoulong` (mpi.cpp:45-47): `get_ui` gives the low 64 bits. -/
def mpitoulong (a : Nat) : Nat := a % 2 ^ 64

/-- `mpiswap` (mpi.cpp:57-59): `std::swap`. -/
def mpiswap (a b : Nat) : Nat × Nat := (b, a)

/-- `mpigcd` (mpi.cpp:61-65): GMP's greatest common divisor. -/
def mpigcd (a b : Nat) : Nat := Nat.gcd a b

end OpenPGP
