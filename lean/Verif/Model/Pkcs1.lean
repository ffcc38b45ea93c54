import Verif.Model.Algs
import Verif.Lemmas.Mpi

/-!
# `src/Misc/PKCS1.cpp`

The random octets are an explicit input: the list of octets `RNG().rand_bytes(1)[0]` yields, in the order of the calls.
A list that ends before the loop does is a call that has not returned: `diverge`.
-/
namespace OpenPGP

/-- The padding loop `while (EM.size() < k - m.size() - 1)` (PKCS1.cpp:16-20): zero octets are skipped. -/
def emePad (target : Nat) : Bytes → Bytes → Out Bytes
  | [], em => if em.length < target then .diverge else .ok em
  | c :: draws, em => if em.length < target then emePad target draws (if c ≠ 0 then em ++ [c] else em) else .ok em

/-- `EME_PKCS1v1_5_ENCODE` (PKCS1.cpp:9-23). `k` is an `unsigned int` below `2 ^ 32`: `k - 11` wraps modulo `2 ^ 32`,
`k - m.size() - 1` is computed in 64 bits. -/
def emeEncode (draws m : Bytes) (k : Nat) : Out Bytes :=
  if (k + 2 ^ 32 - 11) % 2 ^ 32 < m.length then .ok []
  else do
    let em ← emePad (subSz (subSz k m.length) 1) draws [0, 2]
    return em ++ 0 :: m

/-- `while ((x < m.size()) && m[x]) x++` (PKCS1.cpp:29-32), from index `x`. -/
def firstZero (m : Bytes) (x : Nat) : Nat := x + ((m.drop x).takeWhile (· ≠ 0)).length

/-- `EME_PKCS1v1_5_DECODE` (PKCS1.cpp:25-40). -/
def emeDecode (m : Bytes) : Out Bytes := do
  if 11 < m.length then
    let a ← charAt m 0
    let b ← charAt m 1
    if a = 0 ∧ b = 2 then
      let x := firstZero m 2
      substr m (x + 1) (subSz (subSz m.length x) 1)
    else return []
  else return []

/-- ASCII octets of a string literal. -/
def ascii (s : String) : Bytes := s.toList.map fun c => UInt8.ofNat c.toNat

/-- `Hash::ASN1_DER` (Hashes.h:111-119). -/
def asn1Der (alg : UInt8) : Option Bytes :=
  if alg = 1 then some (ascii "3020300C06082A864886F70D020505000410")
  else if alg = 3 then some (ascii "3021300906052B2403020105000414")
  else if alg = 2 then some (ascii "3021300906052B0E03021A05000414")
  else if alg = 11 then some (ascii "302D300d06096086480165030402040500041C")
  else if alg = 8 then some (ascii "3031300d060960864801650304020105000420")
  else if alg = 9 then some (ascii "3041300d060960864801650304020205000430")
  else if alg = 10 then some (ascii "3051300d060960864801650304020305000440")
  else none

/-- `EMSA_PKCS1_v1_5` (PKCS1.cpp:42-44). A padding length that wraps below zero exceeds `std::string::max_size`, and the
constructor throws `std::length_error`. -/
def emsa (hash : UInt8) (digest : Bytes) (keylength : Nat) : Out Bytes := do
  let der ← mapAt (asn1Der hash)
  let len ← mapAt (hashLen hash)
  let pad := subSz (subSz (subSz keylength (der.length / 2)) 3) len
  if 2 ^ 63 ≤ pad then .throw else do
    let d ← unhexlify der
    return [0, 1] ++ List.replicate pad 0xff ++ [0] ++ d ++ digest

end OpenPGP
