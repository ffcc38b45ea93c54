import Verif.Model.Pka
import Verif.Model.Includes

/-!
# `src/RNG/BBS.cpp`: the random number generator of the default build

`RNG::RNG` is `BBS` unless the library is built with OpenSSL's generator (RNGs.h, CMakeLists.txt:82-84).  The members
`seeded`, `state` and `m` are static: there is one generator per process, the value `Bbs` here.  GMP's generator `gmp_randclass
rng(gmp_randinit_default)` is created anew, always in the same initial state, and then seeded with its own output
(BBS.cpp:26-27), so the numbers it yields depend on the requested size only; they and `nextprime` are parameters.
-/
namespace OpenPGP

/-- What `BBS::init` takes from GMP: the numbers `rng.get_z_bits(bits)` returns behind the seeding, in order, and `nextprime`. -/
structure Gmp where
  draw : (bits index : Nat) → Nat
  nextprime : Nat → Nat

/-- The static members (BBS.h:43-45, BBS.cpp:12-16). -/
structure Bbs where
  seeded : Bool
  state : Nat
  m : Nat
  deriving DecidableEq

/-- The static members when the program starts (BBS.cpp:12-16). -/
def Bbs.start : Bbs := ⟨false, 0, 0⟩

/-- `p += 1; p = nextprime(p);` (BBS.cpp:32-33) repeated `i` times. -/
def Gmp.search (g : Gmp) (p : Nat) : Nat → Nat
  | 0 => p
  | i + 1 => g.nextprime (Gmp.search g p i + 1)

open Classical in
/-- `while ((p & 3) != 3)` (BBS.cpp:31-34): the first of the numbers tried that is 3 modulo 4, if there is one. -/
noncomputable def Gmp.findP (g : Gmp) (p : Nat) : Out Nat :=
  if h : ∃ i, g.search p i % 4 = 3 then .ok (g.search p (Nat.find h)) else .diverge

/-- The search for `q` (BBS.cpp:36-45): `pq_gcd` starts at 1025, so the condition `… && (pq_gcd < 1024)` is false before the
first pass and the loop body is never executed. -/
def Gmp.findQ (g : Gmp) (q : Nat) : Nat := g.nextprime q

/-- `BBS::init` (BBS.cpp:20-52); the draw for `q` is the second one if `p` was drawn too. -/
noncomputable def bbsInit (g : Gmp) (s : Bbs) (seed bits p q : Nat) : Out Bbs :=
  if s.seeded then .ok s
  else do
    let p' ← (if p = 0 then g.findP (g.nextprime (g.draw bits 0)) else .ok p)
    let q' := if q = 0 then g.findQ (g.draw bits (if p = 0 then 1 else 0)) else q
    .ok ⟨true, seed, p' * q'⟩

/-- `BBS::r_number` (BBS.cpp:54-56). -/
def bbsNext (s : Bbs) : Out Bbs := do
  let x ← powm s.state 2 s.m
  return { s with state := x }

/-- The loop of `BBS::parity` (BBS.cpp:64-67). -/
def parityLoop (value : Nat) (t : Bool) : Bool :=
  if h : value ≠ 0 then parityLoop (value / 2) (t ^^ (value % 2 == 1)) else t
termination_by value
decreasing_by omega

/-- The values of the argument `par` that make a difference: `"least"`, `"odd"`, and everything else (`"even"` by default). -/
inductive Parity where
  | least | odd | even
  deriving DecidableEq

/-- `BBS::parity` (BBS.cpp:58-72). -/
def bbsParity (s : Bbs) (par : Parity) : Bool :=
  match par with
  | .least => s.state % 2 == 1
  | .odd => parityLoop s.state false ^^ true
  | .even => parityLoop s.state false

/-- `static_cast <unsigned int> (now())` (BBS.cpp:76, 86). -/
def clockSeed (now : Nat) : Nat := now % 2 ^ 32

/-- `BBS::BBS(...)` (BBS.cpp:74-78), and the constructor call at the beginning of `rand_bits` (BBS.cpp:86); the default `bits` is
1024 (BBS.h:53). -/
noncomputable def bbsConstruct (g : Gmp) (s : Bbs) (now : Nat) : Out Bbs := bbsInit g s (clockSeed now) 1024 0 0

/-- The loop of `BBS::rand_bits` (BBS.cpp:89-93). -/
def bbsLoop (par : Parity) : Nat → Bbs → Out (List Bool × Bbs)
  | 0, s => .ok ([], s)
  | n + 1, s => do
    let s ← bbsNext s
    let (bits, s') ← bbsLoop par n s
    return (bbsParity s par :: bits, s')

/-- `BBS::rand_bits` (BBS.cpp:86-96); `bits` is an `unsigned int`. -/
noncomputable def randBits (g : Gmp) (s : Bbs) (now bits : Nat) (par : Parity) : Out (List Bool × Bbs) := do
  let s ← bbsConstruct g s now
  bbsLoop par bits s

/-- The octet made of eight characters by `unbinify` (includes.cpp:103-106). -/
def unbinifyOctet (l : List Bool) : UInt8 := l.foldl (fun c b => (c <<< 1) + (if b then 1 else 0)) 0

/-- The loop of `unbinify` (includes.cpp:102-108). -/
def unbinifyLoop : List Bool → Bytes
  | a :: b :: c :: d :: e :: f :: g :: h :: r => unbinifyOctet [a, b, c, d, e, f, g, h] :: unbinifyLoop r
  | _ => []

/-- `unbinify` (includes.cpp:96-111). -/
def unbinify (l : List Bool) : Out Bytes := if l.length % 8 ≠ 0 then .throw else .ok (unbinifyLoop l)

/-- `BBS::rand_bytes` (BBS.cpp:98-100): `bytes << 3` is computed in `unsigned int`. -/
noncomputable def randBytesBBS (g : Gmp) (s : Bbs) (now bytes : Nat) (par : Parity) : Out (Bytes × Bbs) := do
  let (bits, s) ← randBits g s now (bytes * 8 % 2 ^ 32) par
  let b ← unbinify bits
  return (b, s)

/-- A request of the library: `RNG::RNG().rand_bits(n, par)` or `RNG::RNG().rand_bytes(n, par)`, at two readings of the clock: one by
the constructor, one by the member function. -/
structure Request where
  bytes : Bool
  size : Nat
  par : Parity
  now : Nat
  now' : Nat

/-- What a request returns: a string of bits or octets. -/
inductive Random where
  | bits (l : List Bool)
  | octets (b : Bytes)
  deriving DecidableEq

/-- One request (as in encrypt.cpp:49, RSA.cpp:34): construct, then ask. -/
noncomputable def Request.run (g : Gmp) (s : Bbs) (r : Request) : Out (Random × Bbs) := do
  let s ← bbsConstruct g s r.now
  if r.bytes then do
    let (b, s) ← randBytesBBS g s r.now' r.size r.par
    return (.octets b, s)
  else do
    let (l, s) ← randBits g s r.now' r.size r.par
    return (.bits l, s)

/-- All requests of a process, in order. -/
noncomputable def runRequests (g : Gmp) (s : Bbs) : List Request → Out (List Random × Bbs)
  | [] => .ok ([], s)
  | r :: rs => do
    let (x, s) ← r.run g s
    let (xs, s) ← runRequests g s rs
    return (x :: xs, s)

end OpenPGP
