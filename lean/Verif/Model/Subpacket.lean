import Verif.Model.Framing

/-!
# Signature subpackets: `src/Packets/Subpacket.cpp`, `src/Packets/Tag2/Sub*.cpp`, `src/Packets/Tag2.cpp:8-110`

The type `E` stands for embedded signatures (subpacket 32), which are signature packets again;
`Model/Tag2.lean` ties the knot.
-/
namespace OpenPGP

/-- The subpackets the library knows, with the fields of the classes `Sub2` .. `Sub32`
(default build, without subpacket 33). -/
inductive SubBody (E : Type) where
  | sigTime (t : Nat)                              -- Sub2: uint32_t timestamp
  | sigExpire (dt : Nat)                           -- Sub3: uint32_t dt
  | exportable (b : Bool)                          -- Sub4
  | trust (level amount : UInt8)                   -- Sub5
  | regex (r : Bytes)                              -- Sub6
  | revocable (b : Bool)                           -- Sub7
  | keyExpire (dt : Nat)                           -- Sub9
  | placeholder (s : Bytes)                        -- Sub10
  | prefSym (s : Bytes)                            -- Sub11
  | revKey (cls pka : UInt8) (fingerprint : Bytes) -- Sub12
  | issuer (keyid : Bytes)                         -- Sub16
  | notation (flags m n : Bytes)                   -- Sub20
  | prefHash (s : Bytes)                           -- Sub21
  | prefComp (s : Bytes)                           -- Sub22
  | keyServerPrefs (s : Bytes)                     -- Sub23
  | prefKeyServer (s : Bytes)                      -- Sub24
  | primary (b : Bool)                             -- Sub25
  | policy (s : Bytes)                             -- Sub26
  | keyFlags (s : Bytes)                           -- Sub27
  | signer (s : Bytes)                             -- Sub28
  | reason (code : UInt8) (why : Bytes)            -- Sub29
  | features (s : Bytes)                           -- Sub30
  | target (pka hashAlg : UInt8) (hash : Bytes)    -- Sub31
  | embedded (e : Option E)                        -- Sub32
  deriving DecidableEq, Repr

/-- A subpacket: the critical bit (Subpacket.h:97-100) and the body. -/
structure Sub (E : Type) where
  critical : Bool
  body : SubBody E
  deriving DecidableEq, Repr

namespace SubBody
variable {E : Type}

/-- Type numbers (include/Packets/Tag2/Subpacket.h). -/
def type : SubBody E → Nat
  | sigTime _ => 2 | sigExpire _ => 3 | exportable _ => 4 | trust _ _ => 5 | regex _ => 6
  | revocable _ => 7 | keyExpire _ => 9 | placeholder _ => 10 | prefSym _ => 11 | revKey _ _ _ => 12
  | issuer _ => 16 | «notation» _ _ _ => 20 | prefHash _ => 21 | prefComp _ => 22
  | keyServerPrefs _ => 23 | prefKeyServer _ => 24 | primary _ => 25 | policy _ => 26 | keyFlags _ => 27
  | signer _ => 28 | reason _ _ => 29 | features _ => 30 | target _ _ _ => 31 | embedded _ => 32

/-- `std::string(1, flag)` of a `bool`. -/
def boolOctet (b : Bool) : Bytes := [if b then 1 else 0]

/-- `raw()` of each class (Sub2.cpp:32, Sub3.cpp:32, Sub4.cpp:32, Sub5.cpp:35, Sub6.cpp:40, Sub7.cpp:32, Sub9.cpp:39,
Sub10.cpp:30, Sub11.cpp:37, Sub12.cpp:50, Sub16.cpp:34, Sub20.cpp:54, Sub21.cpp:37, Sub22.cpp:37, Sub23.cpp:47,
Sub24.cpp:30, Sub25.cpp:32, Sub26.cpp:30, Sub27.cpp:47, Sub28.cpp:30, Sub29.cpp:44, Sub30.cpp:48, Sub31.cpp:49,
Sub32.cpp:45). -/
def raw (rawE : E → Bytes) : SubBody E → Bytes
  | sigTime t => be 4 t
  | sigExpire dt => be 4 dt
  | exportable b => boolOctet b
  | trust l a => [l, a]
  | regex r => r ++ [0]
  | revocable b => boolOctet b
  | keyExpire dt => be 4 dt
  | placeholder s => s
  | prefSym s => s
  | revKey c p f => c :: p :: f
  | issuer k => k
  | «notation» f m n => f ++ be 2 m.length ++ be 2 n.length ++ m ++ n
  | prefHash s => s
  | prefComp s => s
  | keyServerPrefs s => s
  | prefKeyServer s => s
  | primary b => boolOctet b
  | policy s => s
  | keyFlags s => s
  | signer s => s
  | reason c w => c :: w
  | features s => s
  | target p h s => p :: h :: s
  | embedded none => []
  | embedded (some e) => rawE e

/-- A freshly constructed subpacket of a type, `none` for the types the reader refuses
(Tag2.cpp:20-100; constructors in Sub*.cpp). -/
def default (type : Nat) : Option (SubBody E) :=
  match type with
  | 2 => some (sigTime 0) | 3 => some (sigExpire 0) | 4 => some (exportable false) | 5 => some (trust 0 0)
  | 6 => some (regex []) | 7 => some (revocable false) | 9 => some (keyExpire 0) | 10 => some (placeholder [])
  | 11 => some (prefSym []) | 12 => some (revKey 0 0 []) | 16 => some (issuer []) | 20 => some («notation» [] [] [])
  | 21 => some (prefHash []) | 22 => some (prefComp []) | 23 => some (keyServerPrefs [])
  | 24 => some (prefKeyServer []) | 25 => some (primary false) | 26 => some (policy []) | 27 => some (keyFlags [])
  | 28 => some (signer []) | 29 => some (reason 0 []) | 30 => some (features []) | 31 => some (target 0 0 [])
  | 32 => some (embedded none) | _ => none

/-- `Sub6::set_regex` (Sub6.cpp:48-55): trailing NULs are removed. -/
def stripNul (s : Bytes) : Bytes := (s.reverse.dropWhile (· == 0)).reverse

/-- `actual_read` of each class (Sub2.cpp:9 .. Sub32.cpp:7) on a freshly constructed object, for non-empty data. The
`uint32_t`/`uint16_t` conversions truncate. -/
def actualRead (readE : Bytes → Out E) (d : Bytes) : SubBody E → Out (SubBody E)
  | sigTime _ => .ok (sigTime (toint256 d % 2 ^ 32))
  | sigExpire _ => .ok (sigExpire (toint256 d % 2 ^ 32))
  | exportable _ => .ok (exportable (d.headD 0 != 0))
  | trust l a => .ok (match d with | x :: y :: _ => trust x y | _ => trust l a)
  | regex _ => .ok (regex (stripNul d))
  | revocable _ => .ok (revocable (d.headD 0 != 0))
  | keyExpire _ => .ok (keyExpire (toint256 d % 2 ^ 32))
  | placeholder _ => .ok (placeholder d)
  | prefSym _ => .ok (prefSym d)
  | revKey c p f =>
    .ok (if d.length ≥ 22 then revKey (d.headD 0) ((d.drop 1).headD 0) ((d.drop 2).take 20) else revKey c p f)
  | issuer _ => .ok (issuer d)
  | «notation» f m n =>
    .ok (if d.length ≥ 8 then
      let mlen := num ((d.drop 4).take 2)
      let nlen := num ((d.drop 6).take 2)
      if d.length > 8 + mlen + nlen then
        «notation» (d.take 4) ((d.drop 8).take mlen) ((d.drop (8 + mlen)).take nlen)
      else «notation» (d.take 4) m n
    else «notation» f m n)
  | prefHash _ => .ok (prefHash d)
  | prefComp _ => .ok (prefComp d)
  | keyServerPrefs _ => .ok (keyServerPrefs d)
  | prefKeyServer _ => .ok (prefKeyServer d)
  | primary _ => .ok (primary (d.headD 0 != 0))
  | policy _ => .ok (policy d)
  | keyFlags _ => .ok (keyFlags d)
  | signer _ => .ok (signer d)
  | reason _ _ => .ok (reason (d.headD 0) (d.drop 1))
  | features _ => .ok (features d)
  | target p h s =>
    .ok (if d.length > 2 then target (d.headD 0) ((d.drop 1).headD 0) (d.drop 2) else target p h s)
  | embedded _ => do
    let e ← readE d
    return embedded (some e)

/-- `Sub::read` (Subpacket.cpp:54-59) on a freshly constructed object. -/
def read (readE : Bytes → Out E) (fresh : SubBody E) (d : Bytes) : Out (SubBody E) :=
  if d = [] then .ok fresh else actualRead readE d fresh

end SubBody

variable {E : Type}

/-- Length octets of `write_subpacket` (Subpacket.cpp:30-40). -/
def subLengthOctets (n : Nat) : Bytes :=
  if n < 192 then [UInt8.ofNat n]
  else if n < 8383 then [UInt8.ofNat ((n - 192) / 256 + 192), UInt8.ofNat (n - 192)]
  else 0xff :: be 4 n

/-- `Sub::write` (Subpacket.cpp:77-79) with `write_subpacket` (30-40). -/
def Sub.write (rawE : E → Bytes) (s : Sub E) : Bytes :=
  let data := UInt8.ofNat (s.body.type + if s.critical then 128 else 0) :: s.body.raw rawE
  subLengthOctets data.length ++ data

/-- `Sub::read_subpacket` (Subpacket.cpp:9-20): the length and the position behind the length octets. -/
def readSubLength (data : Bytes) (pos : Nat) : Out (Nat × Nat) := do
  let first ← charAt data pos
  if first < 192 then readOneOctet data pos
  else if first < 255 then readTwoOctet data pos .new
  else readFiveOctet data pos

/-- Loop of `Tag2::read_subpackets` (Tag2.cpp:12-109). -/
def readSubpacketsLoop (readE : Bytes → Out E) (data : Bytes) : (fuel pos : Nat) → Out (List (Sub E))
  | 0, _ => .diverge
  | fuel + 1, pos =>
    if pos < data.length then do
      let (len, pos) ← readSubLength data pos
      let c ← charAt data pos
      match SubBody.default (c &&& 0x7f).toNat with
      | none => .throw
      | some fresh => do
        let d ← substr data (pos + 1) (subSz len 1)
        let body ← SubBody.read readE fresh d
        let rest ← readSubpacketsLoop readE data fuel (pos + len)
        return ⟨c &&& 0x80 != 0, body⟩ :: rest
    else .ok []

/-- `Tag2::read_subpackets` (Tag2.cpp:8-110). -/
def readSubpackets (readE : Bytes → Out E) (data : Bytes) : Out (List (Sub E)) :=
  readSubpacketsLoop readE data (data.length + 1) 0

/-- The written form of a list of subpackets (Tag2.cpp:271-278, 519-522). -/
def writeSubpackets (rawE : E → Bytes) (l : List (Sub E)) : Bytes := l.flatMap (Sub.write rawE)

end OpenPGP
