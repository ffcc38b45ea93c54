import Verif.Model.Hashes
import Verif.Model.Strings

/-!
# The files that use OpenSSL

`src/RNG/RAND_bytes.cpp` (compiled with `-DUSE_OPENSSL_RNG`) and `src/Hashes/OpenSSL/*.cpp`. OpenSSL itself is a parameter; what its documentation says of it is
`Spec/OpenSsl.lean`. (`src/Hashes/CMakeLists.txt:11` misspells the switch as `USE_OPENSS_HASH`, so that the build never compiles the hash files although
`include/Hashes/*.h` then declare their classes; they are modelled as they stand.)
-/
namespace OpenPGP

/-! ## Random octets -/

/-- OpenSSL's generator: what call number `i` of `::RAND_bytes` does when it is asked for `n` octets after the seeds `seeds` have been handed to `::RAND_seed`; `none` is a
return value other than 1. -/
structure SslRand where
  call : (seeds : List Bytes) → (i n : Nat) → Option Bytes

/-- The static member (RAND_bytes.cpp:11, RAND_bytes.h:39) and what OpenSSL has been given: the seeds, and the number of calls so far. -/
structure SslState where
  seeded : Bool
  seeds : List Bytes
  calls : Nat
  deriving DecidableEq

/-- Before the first call in a process. -/
def SslState.start : SslState := ⟨false, [], 0⟩

/-- `RAND_bytes::seed` (RAND_bytes.cpp:13-18). -/
def SslState.seed (s : SslState) (buf : Bytes) : SslState :=
  if !s.seeded then { s with seeds := s.seeds ++ [buf], seeded := true } else s

/-- `RAND_bytes::RAND_bytes(...)` (RAND_bytes.cpp:20-25): `junk` is what the 1024 octets from `malloc` happen to hold. -/
def SslState.construct (s : SslState) (junk : Bytes) : SslState := s.seed junk

/-- The loop (RAND_bytes.cpp:45-48), with `max_attempts - attempt` calls left: `none` if all of them fail. -/
def sslLoop (lib : SslRand) (n : Nat) : Nat → SslState → Option Bytes × SslState
  | 0, s => (none, s)
  | k + 1, s => match lib.call s.seeds s.calls n with
    | some b => (some b, { s with calls := s.calls + 1 })
    | none => sslLoop lib n k { s with calls := s.calls + 1 }

/-- `RAND_bytes::rand_bytes` (RAND_bytes.cpp:40-57). `bytes` is converted to `int`: sizes from 2^31 on are not modelled. -/
def sslRandBytes (lib : SslRand) (s : SslState) (junk : Bytes) (n max : Nat) : Out Bytes × SslState :=
  match sslLoop lib n max (s.construct junk) with
  | (none, s) => (.throw, s)
  | (some b, s) => (.ok b, s)

/-- `RAND_bytes::rand_bits` (RAND_bytes.cpp:36-38). -/
def sslRandBits (lib : SslRand) (s : SslState) (junk : Bytes) (bits max : Nat) : Out Bytes × SslState :=
  match sslRandBytes lib s junk ((bits >>> 3) + (if bits &&& 0xff ≠ 0 then 1 else 0)) max with
  | (.ok b, s) => (.ok ((binify b).take bits), s)
  | (r, s) => (r, s)

/-- One use of the generator, with the contents of the memory that the constructors find. -/
inductive SslCall where
  /-- `RAND_bytes(seed)` (RAND_bytes.cpp:27-34) -/
  | seeded (seed : Bytes)
  /-- `RNG::RNG().rand_bytes(n)` (as in encrypt.cpp:49) -/
  | octets (n : Nat) (junk junk' : Bytes)
  /-- `RNG::RNG().rand_bits(n)` (as in RSA.cpp:34) -/
  | bits (n : Nat) (junk junk' : Bytes)

/-- One use; the default number of attempts is 5 (RAND_bytes.h:47-48). -/
def SslCall.run (lib : SslRand) (s : SslState) : SslCall → Option (Out Bytes) × SslState
  | .seeded seed => (none, s.seed seed)
  | .octets n junk junk' => let (r, s) := sslRandBytes lib (s.construct junk) junk' n 5; (some r, s)
  | .bits n junk junk' => let (r, s) := sslRandBits lib (s.construct junk) junk' n 5; (some r, s)

/-- All uses in a process, in order; the results of those that return something, exceptions being caught by the caller. -/
def runSsl (lib : SslRand) (s : SslState) : List SslCall → List (Option (Out Bytes)) × SslState
  | [] => ([], s)
  | c :: cs =>
    let (r, s) := c.run lib s
    let (rs, s) := runSsl lib s cs
    (r :: rs, s)

/-! ## Hashes -/

/-- The families of functions `X_Init`, `X_Update`, `X_Final` of OpenSSL. -/
inductive SslFamily where
  | md5 | sha1 | ripemd160 | sha224 | sha256 | sha384 | sha512
  deriving DecidableEq

/-- OpenSSL's hash functions on a context; `final` gives the octets written and the context after the call. -/
structure SslHashes (C : Type) where
  init : SslFamily → C
  update : SslFamily → C → Bytes → C
  final : SslFamily → C → Bytes × C

/-- What distinguishes the seven classes: the functions called by the constructor, `update` and `hexdigest`, the constant `X_DIGEST_LENGTH`, `blocksize()` and
`digestsize()`. -/
structure SslClass where
  init : SslFamily
  update : SslFamily
  final : SslFamily
  length : Nat
  blocksize : Nat
  digestsize : Nat

/-- `MD5` (OpenSSL/MD5.cpp:6-36). -/
def sslMd5 : SslClass := ⟨.md5, .md5, .md5, 16, 512, 128⟩
/-- `SHA1` (OpenSSL/SHA1.cpp:6-36). -/
def sslSha1 : SslClass := ⟨.sha1, .sha1, .sha1, 20, 512, 160⟩
/-- `RIPEMD160` (OpenSSL/RIPEMD160.cpp:6-36). -/
def sslRipemd160 : SslClass := ⟨.ripemd160, .ripemd160, .ripemd160, 20, 512, 160⟩
/-- `SHA256` (OpenSSL/SHA256.cpp:6-36). -/
def sslSha256 : SslClass := ⟨.sha256, .sha256, .sha256, 32, 256, 256⟩
/-- `SHA384` (OpenSSL/SHA384.cpp:6-36). -/
def sslSha384 : SslClass := ⟨.sha384, .sha384, .sha384, 48, 1024, 384⟩
/-- `SHA512` (OpenSSL/SHA512.cpp:6-36). -/
def sslSha512 : SslClass := ⟨.sha512, .sha512, .sha512, 64, 1024, 512⟩
/-- `SHA224` (OpenSSL/SHA224.cpp:6-36). -/
def sslSha224 : SslClass := ⟨.sha224, .sha224, .sha224, 28, 512, 224⟩

/-- `get_instance` (Hashes.cpp:14-42): unknown numbers throw. -/
def sslClass (alg : UInt8) : Option SslClass :=
  if alg = 1 then some sslMd5
  else if alg = 2 then some sslSha1
  else if alg = 3 then some sslRipemd160
  else if alg = 8 then some sslSha256
  else if alg = 9 then some sslSha384
  else if alg = 10 then some sslSha512
  else if alg = 11 then some sslSha224
  else none

/-- `hexdigest` of the classes, as in OpenSSL/MD5.cpp:22-26: the object after the call, and the text. -/
def SslClass.hexdigest {C : Type} (c : SslClass) (lib : SslHashes C) (ctx : C) : C × Bytes :=
  let (buf, ctx) := lib.final c.final ctx
  (ctx, hexlify (buf.take c.length))

/-- A history of calls on one object; `digest` is `Alg::digest` (Alg.cpp:10-12). -/
def SslClass.run {C : Type} (c : SslClass) (lib : SslHashes C) : List HashCall → C → Out (List Bytes)
  | [], _ => .ok []
  | .update s :: cs, ctx => c.run lib cs (lib.update c.update ctx s)
  | .digest :: cs, ctx => do
    let (ctx, h) := c.hexdigest lib ctx
    let d ← unhexlify h
    let ds ← c.run lib cs ctx
    return d :: ds

/-- `get_instance(alg, data)` followed by calls on the object. -/
def sslRun {C : Type} (lib : SslHashes C) (alg : UInt8) (data : Bytes) (cs : List HashCall) : Out (List Bytes) :=
  match sslClass alg with
  | none => .throw
  | some c => c.run lib (.update data :: cs) (lib.init c.init)

/-- `use(alg, data)` (Hashes.cpp:10-12). -/
def sslUse {C : Type} (lib : SslHashes C) (alg : UInt8) (data : Bytes) : Out Bytes := do
  let ds ← sslRun lib alg data [.digest]
  match ds with
  | [d] => return d
  | _ => .ub

end OpenPGP
