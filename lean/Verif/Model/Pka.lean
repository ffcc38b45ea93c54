import Verif.Lemmas.Mpi
import Mathlib.Data.Int.GCD

/-!
# `src/PKA/*.cpp`: RSA, ElGamal, DSA

GMP integers are `Nat`. Random numbers (`bintompi(RNG().rand_bits(..))`) are explicit inputs: the list of numbers drawn, in
order; a list that ends too early is a call that has not returned (`diverge`). `nextprime` and the primality test are
parameters.
-/
namespace OpenPGP

/-- `powm` (mpi.cpp:73-77): `mpz_powm_sec`, which divides by zero for a zero or even modulus and gives `1 mod m` for
exponent zero. -/
def powm (base exp m : Nat) : Out Nat := if m % 2 = 0 then .ub else .ok (base ^ exp % m)

/-- `invert` (mpi.cpp:79-83): `mpz_invert` into a fresh (zero) variable, whose failure is not checked: without an inverse
the result is documented as undefined and GMP leaves the zero. `invert_spec`, `invert_unique` characterise it. -/
def invert (a b : Nat) : Nat := if Nat.gcd a b = 1 then (Nat.gcdA a b % (b : Int)).toNat else 0

/-! ## RSA (RSA.cpp) -/

/-- `RSA::encrypt` (RSA.cpp:57-63). -/
def rsaEncrypt (data : Nat) (pub : List Nat) : Out Nat := do powm data (← vecAt pub 1) (← vecAt pub 0)

/-- `RSA::decrypt` and `RSA::sign` on integers (RSA.cpp:65-71). -/
def rsaDecrypt (data : Nat) (pri pub : List Nat) : Out Nat := do powm data (← vecAt pri 0) (← vecAt pub 0)

/-- `RSA::sign` on octets (RSA.cpp:73-75). -/
def rsaSign (data : Bytes) (pri pub : List Nat) : Out Nat := do rsaDecrypt (← rawtompi data) pri pub

/-- `RSA::verify` on integers (RSA.cpp:77-79). -/
def rsaVerifyInt (data : Nat) (sig pub : List Nat) : Out Bool := do
  let s ← vecAt sig 0
  let m ← rsaEncrypt s pub
  return m == data

/-- `RSA::verify` on octets (RSA.cpp:81-83). -/
def rsaVerify (data : Bytes) (sig pub : List Nat) : Out Bool := do rsaVerifyInt (← rawtompi data) sig pub

/-- `while (p == q)` (RSA.cpp:33-36), entered with `p == q`: two numbers are drawn per round. Returns the remaining draws. -/
def rsaPrimes (np : Nat → Nat) : List Nat → Out (Nat × Nat × List Nat)
  | a :: b :: draws => if np a = np b then rsaPrimes np draws else .ok (np a, np b, draws)
  | _ => .diverge

/-- `while (mpigcd(tot, e) != 1) e += 2` (RSA.cpp:49-51). -/
def rsaExponent (tot : Nat) : Nat → Nat → Out Nat
  | 0, _ => .diverge
  | fuel + 1, e => if Nat.gcd tot e ≠ 1 then rsaExponent tot fuel (e + 2) else .ok e

/-- `RSA::keygen` without `GPG_COMPATIBLE` (RSA.cpp:7-10, 32-55), giving `n, e, d, p, q, u`. The iteration bound for the
search of `e` is one the search is proved never to reach (`rsaExponent_ok`). -/
def rsaKeygen (np : Nat → Nat) (draws : List Nat) : Out (List Nat) := do
  let (p, q, draws) ← rsaPrimes np draws
  let n := p * q
  let (p, q) := if q < p then (q, p) else (p, q)
  let tot := (p - 1) * (q - 1)
  match draws with
  | [] => .diverge
  | e :: _ =>
    let e := if e % 2 = 0 then e + 1 else e
    let e ← rsaExponent tot (tot * e + 2) e
    return [n, e, invert e tot, p, q, invert p q]

/-! ## ElGamal (ElGamal.cpp) -/

/-- `ElGamal::encrypt` (ElGamal.cpp:50-57); `draw` is the random number. -/
def elgamalEncrypt (draw data : Nat) (pub : List Nat) : Out (List Nat) := do
  let p ← vecAt pub 0
  if p = 0 then .ub else do
    let k := draw % p
    let r ← powm (← vecAt pub 1) k p
    let s ← powm (← vecAt pub 2) k p
    return [r, data * s % p]

/-- `ElGamal::decrypt` (ElGamal.cpp:63-70). -/
def elgamalDecrypt (c pri pub : List Nat) : Out Bytes := do
  let p ← vecAt pub 0
  let s ← powm (← vecAt c 0) (← vecAt pri 0) p
  let m := invert s p
  let c1 ← vecAt c 1
  mpitoraw (m * c1 % p)

/-- `while (g == 1) g = powm(++h, exp, p)` (ElGamal.cpp:33-35; DSA.cpp:30-33), entered with `g == 1`. -/
def findGenerator (exp p : Nat) : Nat → Nat → Out Nat
  | 0, _ => .diverge
  | fuel + 1, h => do
    let g ← powm (h + 1) exp p
    if g = 1 then findGenerator exp p fuel (h + 1) else .ok g

/-- `while (!knuth_prime_test(p, 25)) p += q` (ElGamal.cpp:25-27; DSA.cpp:23-25). -/
def findPrime (test : Nat → Bool) (q : Nat) : Nat → Nat → Out Nat
  | 0, _ => .diverge
  | fuel + 1, p => if test p then .ok p else findPrime test q fuel (p + q)

/-- `while ((x == 0) || (p <= x))` (ElGamal.cpp:39-41; DSA.cpp:44-46), entered with `x == 0`. -/
def drawBelow (p : Nat) : List Nat → Out Nat
  | [] => .diverge
  | x :: draws => if x = 0 ∨ p ≤ x then drawBelow p draws else .ok x

/-- `ElGamal::keygen` (ElGamal.cpp:11-48) from the point where the auxiliary prime `q` and the starting value `start` have
been drawn; `fuel` bounds the search for `p`. Gives `p, g, y, x`. -/
def elgamalKeygen (test : Nat → Bool) (q start fuel : Nat) (draws : List Nat) : Out (List Nat) := do
  let p ← findPrime test q fuel ((start - 1) / q * q + 1)
  let g ← findGenerator ((p - 1) / q) p p 1
  let x ← drawBelow p draws
  let y ← powm g x p
  return [p, g, y, x]

/-! ## DSA (DSA.cpp) -/

/-- One round of the loop of `DSA::sign` (DSA.cpp:81-93) for nonce `k`: the pair `(r, s)`, with `s = 0` when `r = 0`. -/
def dsaRound (data x p q g k : Nat) : Out (Nat × Nat) := do
  let r ← powm g k p
  let r := r % q
  if r = 0 then return (0, 0)
  else return (r, invert k q * (data + x * r) % q)

/-- The loop of `DSA::sign` with drawn nonces (`set_k`, DSA.cpp:74-94). -/
def dsaSignLoop (data x p q g : Nat) : List Nat → Out (List Nat)
  | [] => .diverge
  | k :: draws => do
    let (r, s) ← dsaRound data x p q g (k % q)
    if r = 0 ∨ s = 0 then dsaSignLoop data x p q g draws else return [r, s]

/-- `DSA::sign` on integers with drawn nonces (DSA.cpp:70-97). A zero `q` divides by zero. The caller-supplied nonce
(a test hook) is `dsaRound`. -/
def dsaSignInt (draws : List Nat) (data : Nat) (pri pub : List Nat) : Out (List Nat) := do
  let p ← vecAt pub 0
  let q ← vecAt pub 1
  let g ← vecAt pub 2
  let x ← vecAt pri 0
  if q = 0 then .ub else dsaSignLoop data x p q g draws

/-- `DSA::sign` on octets (DSA.cpp:99-101). -/
def dsaSign (draws : List Nat) (data : Bytes) (pri pub : List Nat) : Out (List Nat) := do
  dsaSignInt draws (← rawtompi data) pri pub

/-- `DSA::verify` on integers (DSA.cpp:103-124). The range test is the code's:
`!((0 < r) && (r < q)) & !((0 < r) && (s < q))`. -/
def dsaVerifyInt (data : Nat) (sig pub : List Nat) : Out Bool := do
  let r ← vecAt sig 0
  let s ← vecAt sig 1
  let p ← vecAt pub 0
  let q ← vecAt pub 1
  let g ← vecAt pub 2
  let y ← vecAt pub 3
  if !(decide (0 < r) && decide (r < q)) && !(decide (0 < r) && decide (s < q)) then return false
  else if q = 0 then .ub
  else do
    let w := invert s q
    let u1 := data * w % q
    let u2 := r * w % q
    let a ← powm g u1 p
    let b ← powm y u2 p
    return (a * b % p % q) == r

/-- `DSA::verify` on octets (DSA.cpp:126-128). -/
def dsaVerify (data : Bytes) (sig pub : List Nat) : Out Bool := do dsaVerifyInt (← rawtompi data) sig pub

/-- `DSA::new_public` (DSA.cpp:7-36) from the point where the prime `q` and the starting value have been drawn. -/
def dsaNewPublic (test : Nat → Bool) (q start fuel : Nat) : Out (List Nat) := do
  let p ← findPrime test q fuel ((start - 1) / q * q + 1)
  let g ← findGenerator ((p - 1) / q) p p 1
  return [p, q, g]

/-- The text the generated key is tried on, `"testing testing 123"` (DSA.cpp:40). -/
def dsaTestText : Bytes :=
  [116, 101, 115, 116, 105, 110, 103, 32, 116, 101, 115, 116, 105, 110, 103, 32, 49, 50, 51]

/-- The outer loop of `DSA::keygen` (DSA.cpp:42-65) for the chosen `x` (which is kept when a trial fails): one list of nonces
per trial. -/
def dsaKeyTrials (x : Nat) (pub : List Nat) : List (List Nat) → Out (List Nat × List Nat)
  | [] => .diverge
  | nonces :: trials => do
    let y ← powm (← vecAt pub 2) x (← vecAt pub 0)
    let rs ← dsaSign nonces dsaTestText [x] (pub ++ [y])
    let good ← dsaVerify dsaTestText rs (pub ++ [y])
    if good then return (pub ++ [y], [x]) else dsaKeyTrials x pub trials

/-- `DSA::keygen` (DSA.cpp:38-68): the completed public values and the secret ones. -/
def dsaKeygen (draws : List Nat) (trials : List (List Nat)) (pub : List Nat) : Out (List Nat × List Nat) := do
  let x ← drawBelow (← vecAt pub 1) draws
  dsaKeyTrials x pub trials

end OpenPGP
