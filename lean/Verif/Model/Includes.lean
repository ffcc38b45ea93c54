import Verif.Base

/-!
# `src/common/includes.cpp`, `include/common/includes.h`: string helpers

Strings of `'0'`/`'1'` characters used by the code for bit strings are `List Bool` here.
-/
namespace OpenPGP

/-- Characters `0-9a-f` / `0-9A-F` (includes.h:48,51). -/
def hexDigit (caps : Bool) (d : Nat) : UInt8 :=
  if d < 10 then UInt8.ofNat (48 + d)
  else if caps then UInt8.ofNat (55 + d) else UInt8.ofNat (87 + d)

/-- `makehex` (includes.h:44-56): the low `size` hex digits of `value`.  The loop stops early when
`value` becomes 0, leaving the `'0'` fill, which is what the recursion gives. -/
def makehex (value : Nat) : Nat → (caps : Bool) → Bytes
  | 0, _ => []
  | size + 1, caps => makehex (value / 16) size caps ++ [hexDigit caps (value % 16)]

/-- `makebin` (includes.h:32-39): the low `size` bits of `value`, most significant first. -/
def makebin (value : Nat) : Nat → List Bool
  | 0 => []
  | size + 1 => makebin (value / 2) size ++ [value % 2 == 1]

/-- `hexlify(char)` (includes.cpp:127-129). -/
def hexlifyChar (c : UInt8) (caps : Bool) : Bytes := makehex c.toNat 2 caps

/-- `hexlify(string)` (includes.cpp:115-125).  The code indexes with `unsigned int`; strings of
2^31 octets and more (where the index would wrap) are not modelled. -/
def hexlify (s : Bytes) (caps : Bool := false) : Bytes :=
  s.flatMap fun c => hexlifyChar c caps

/-- One hex character of `unhexlify` (includes.cpp:138-149, 150-161); `none` is the `throw` branch. -/
def unhexChar (c : UInt8) : Option UInt8 :=
  if 48 ≤ c ∧ c ≤ 57 then some (c - 48)
  else if 97 ≤ c ∧ c ≤ 102 then some (c - 97 + 10)
  else if 65 ≤ c ∧ c ≤ 70 then some (c - 65 + 10)
  else none

/-- Loop of `unhexlify` (includes.cpp:137-162). -/
def unhexLoop : Bytes → Out Bytes
  | a :: b :: rest =>
    match unhexChar a with
    | none => .throw
    | some h =>
      match unhexChar b with
      | none => .throw
      | some l => do
        let r ← unhexLoop rest
        return ((h <<< 4) ||| l) :: r
  | _ => .ok []

/-- `unhexlify` (includes.cpp:131-164). -/
def unhexlify (s : Bytes) : Out Bytes :=
  if s.length % 2 = 1 then .throw else unhexLoop s

/-- `toint(s, 2)` (includes.cpp:7-14) on a bit string; the code's 64-bit wrap is never reached by its
callers (at most 48 bits). -/
def tointBits (l : List Bool) : Nat := l.foldl (fun v b => v * 2 + b.toNat) 0

/-- `toint(s, 256)` (includes.cpp:24-28): big-endian value, wrapping at 64 bits. -/
def toint256 (s : Bytes) : Nat := num s % 2 ^ 64

/-- `pkcs5` (includes.cpp:166-171); `blocksize > 0`, `std::size_t` subtraction wraps. The padding
octet is `pad` truncated to a `char`. -/
def pkcs5 (data : Bytes) (blocksize : Nat) : Bytes :=
  let pad := (subSz blocksize data.length % blocksize) % blocksize
  data ++ List.replicate pad (UInt8.ofNat pad)

/-- `remove_pkcs5` (includes.cpp:173-180); `data[size - 1]` of an empty string is out of range. -/
def removePkcs5 (data : Bytes) : Out Bytes :=
  match data.getLast? with
  | none => .ub
  | some last =>
    let pad := last.toNat
    if pad < data.length ∧ List.replicate pad (UInt8.ofNat pad) = data.drop (data.length - pad) then
      .ok (data.take (data.length - pad))
    else .ok data

/-- `zfill` (includes.cpp:183-188). -/
def zfill (s : Bytes) (n : Nat) (fill : UInt8) : Bytes :=
  List.replicate (n - s.length) fill ++ s

/-- `xor_strings` (includes.cpp:232-239). -/
def xorStrings (a b : Bytes) : Bytes := List.zipWith (· ^^^ ·) a b

/-- `and_strings` (includes.cpp:212-219). -/
def andStrings (a b : Bytes) : Bytes := List.zipWith (· &&& ·) a b

/-- `or_strings` (includes.cpp:222-229). -/
def orStrings (a b : Bytes) : Bytes := List.zipWith (· ||| ·) a b

/-- `trim_whitespace` (includes.cpp:242-266) with white-space set `ws`. -/
def trimWhitespace (src : Bytes) (front back : Bool) (ws : UInt8 → Bool) : Bytes :=
  let s := if front then src.dropWhile ws else src
  if back then (s.reverse.dropWhile ws).reverse else s

end OpenPGP
