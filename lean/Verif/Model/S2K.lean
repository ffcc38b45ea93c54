import Verif.Model.Algs

/-!
# String-to-key specifiers: `src/Misc/s2k.cpp`

A hash object that is fed in pieces is modelled by the octets fed so far (C41 justifies this).
-/
namespace OpenPGP

/-- `S2K0`, `S2K1` and `S2K3` objects (s2k.h). -/
inductive S2K where
  | simple (hash : UInt8)
  | salted (hash : UInt8) (salt : Bytes)
  | iterated (hash : UInt8) (salt : Bytes) (count : UInt8)
  deriving DecidableEq, Repr

namespace S2K

/-- `S2K::get_hash` (s2k.cpp:50-52). -/
def hash : S2K → UInt8
  | simple h => h
  | salted h _ => h
  | iterated h _ _ => h

/-- `S2K0::raw`, `S2K1::raw`, `S2K3::raw` (s2k.cpp:86-88, 143-145, 216-218). -/
def raw : S2K → Bytes
  | simple h => [0, h]
  | salted h salt => [1, h] ++ salt
  | iterated h salt c => [3, h] ++ salt ++ [c]

/-- `set_salt(data.substr(pos, 8))` (s2k.cpp:137-141, 160-166). -/
def readSalt (data : Bytes) (pos : Nat) : Out Bytes := do
  let salt ← substr data pos 8
  if salt.length ≠ 8 then .throw else .ok salt

/-- Choice of the kind by its first octet (Tag5.cpp:6-23, Tag3.cpp:10-28) and `S2K::read`, `S2K1::read`, `S2K3::read`
(s2k.cpp:24-28, 137-141, 210-214). -/
def read (data : Bytes) (pos : Nat) : Out (S2K × Nat) := do
  let type ← charAt data pos
  if type = 0 then do
    let h ← charAt data (pos + 1)
    return (simple h, pos + 2)
  else if type = 1 then do
    let h ← charAt data (pos + 1)
    let salt ← readSalt data (pos + 2)
    return (salted h salt, pos + 10)
  else if type = 3 then do
    let h ← charAt data (pos + 1)
    let salt ← readSalt data (pos + 2)
    let c ← charAt data (pos + 10)
    return (iterated h salt c, pos + 11)
  else .throw

/-- `S2K3::coded_count` (s2k.cpp:188-190); `EXPBIAS` is 6 (s2k.h). -/
def codedCount (c : UInt8) : Nat := (16 + c.toNat % 16) <<< (c.toNat / 16 + 6)

/-- Loop of `S2K0::run` and `S2K1::run` (s2k.cpp:93-95, 150-152); `tail` is the passphrase behind the salt. -/
def runLoop (cr : Crypto) (h : UInt8) (tail : Bytes) (len : Nat) : (fuel counter : Nat) → (out : Bytes) → Out Bytes
  | 0, _, _ => .diverge
  | fuel + 1, counter, out =>
    if out.length < len then do
      let d ← hashUse cr h (List.replicate counter 0 ++ tail)
      runLoop cr h tail len fuel (counter + 1) (out ++ d)
    else .ok out

/-- The `do ... while` loop of `S2K3::run` (s2k.cpp:231-235): octets fed to the hash and the counter `hashed`. -/
def feedLoop (combined : Bytes) (coded : Nat) : (fuel : Nat) → (fed : Bytes) → (hashed : Nat) → Out (Bytes × Nat)
  | 0, _, _ => .diverge
  | fuel + 1, fed, hashed =>
    let fed := fed ++ combined
    let hashed := hashed + combined.length
    if hashed + combined.length < coded then feedLoop combined coded fuel fed hashed else .ok (fed, hashed)

/-- Loop over the contexts of `S2K3::run` (s2k.cpp:228-241). -/
def contextLoop (cr : Crypto) (h : UInt8) (combined : Bytes) (coded : Nat) : (left context : Nat) → (out : Bytes) → Out Bytes
  | 0, _, out => .ok out
  | left + 1, context, out => do
    let (fed, hashed) ← feedLoop combined coded (coded + 1) (List.replicate context 0) 0
    let fed := if hashed < coded then fed ++ combined.take (coded - hashed) else fed
    let d ← hashUse cr h fed
    contextLoop cr h combined coded left (context + 1) (out ++ d)

/-- `S2K::run` (s2k.cpp:90-97, 147-154, 220-244). -/
def run (cr : Crypto) (s : S2K) (pass : Bytes) (len : Nat) : Out Bytes :=
  match s with
  | simple h => do
    let out ← runLoop cr h pass len (len + 1) 0 []
    return out.take len
  | salted h salt => do
    let out ← runLoop cr h (salt ++ pass) len (len + 1) 0 []
    return out.take len
  | iterated h salt c => do
    let digest ← mapAt (hashLen h)
    let contexts := len / digest + (if len % digest ≠ 0 then 1 else 0)
    let out ← contextLoop cr h (salt ++ pass) (codedCount c) contexts 0 []
    return out.take len

end S2K
end OpenPGP
