import Verif.Model.CipherBase

/-!
# Model of `src/Encryptions/IDEA.cpp`

The member `keys` is cleared and filled again by every call before it is used, so only `k` is part of the modelled
object.  The hexadecimal and binary strings of `setkey` are modelled by the 128-bit number they spell.
-/
namespace OpenPGP

/-- `IDEA::mult` (IDEA.cpp:5-22); the product is computed in 32 bits. -/
def ideaMult (value1 value2 : BitVec 16) : BitVec 16 :=
  if value1 = 0 ∧ value2 = 0 then 1 else
  let v1 := if value1 = 0 then 65536 else value1.toNat
  let v2 := if value2 = 0 then 65536 else value2.toNat
  let v := v1 * v2 % 2 ^ 32 % 65537
  if v = 65536 then 0 else BitVec.ofNat 16 v

/-- The loop of `invmod` (cryptomath.h:36-46) in `int`: `x`, `lastx` are not used for the result. -/
def invmodLoop : (fuel : Nat) → (a b : Nat) → (y lasty : Int) → Out Int
  | 0, _, _, _, _ => .diverge
  | fuel + 1, a, b, y, lasty =>
    if b ≠ 0 then invmodLoop fuel b (a % b) (lasty - (a / b : Nat) * y) y
    else .ok lasty

/-- `invmod<int>(a, b)` for non-negative arguments (cryptomath.h:31-51). -/
def invmod (a b : Nat) : Out Int := do
  let lasty ← invmodLoop (b + 2) a b 1 0
  pure (if lasty < 0 then lasty + a else lasty)

/-- `two_comp(a)` with 16 bits, stored in a `uint16_t` (cryptomath.h:93-96). -/
def twoComp (a : BitVec 16) : BitVec 16 := (a ^^^ 0xffff) + 1

/-- Four `uint16_t` variables. -/
structure Quad16 where
  a : BitVec 16
  b : BitVec 16
  c : BitVec 16
  d : BitVec 16
  deriving DecidableEq

/-- `x1 … x4` from the data (IDEA.cpp:34-37). -/
def ideaIn (d : Bytes) : Quad16 := ⟨wordAt 16 d 0 2, wordAt 16 d 2 2, wordAt 16 d 4 2, wordAt 16 d 6 2⟩

/-- One pass of the loop of `IDEA::run` (IDEA.cpp:39-52) with the six subkeys `keys[x]`. -/
def ideaRound (q : Quad16) (z : List (BitVec 16)) : Quad16 :=
  let t1 := ideaMult q.a (z.getD 0 0)
  let t2 := q.b + z.getD 1 0
  let t3 := q.c + z.getD 2 0
  let t4 := ideaMult q.d (z.getD 3 0)
  let t5 := t1 ^^^ t3
  let t6 := t2 ^^^ t4
  let t7 := ideaMult t5 (z.getD 4 0)
  let t8 := t6 + t7
  let t9 := ideaMult t8 (z.getD 5 0)
  let t10 := t7 + t9
  ⟨t1 ^^^ t9, t3 ^^^ t9, t2 ^^^ t10, t4 ^^^ t10⟩

/-- `IDEA::run` after its checks (IDEA.cpp:34-59), `keys` being nine vectors. -/
def ideaBlock (keys : List (List (BitVec 16))) (DATA : Bytes) : Out Bytes :=
  let q := (List.range 8).foldl (fun q x => ideaRound q (keys.getD x [])) (ideaIn DATA)
  let z := keys.getD 8 []
  let x1 := ideaMult q.a (z.getD 0 0)
  let x2 := q.c + z.getD 1 0
  let x3 := q.b + z.getD 2 0
  let x4 := ideaMult q.d (z.getD 3 0)
  unhexlify (makehex x1.toNat 4 false ++ makehex x2.toNat 4 false ++ makehex x3.toNat 4 false ++ makehex x4.toNat 4 false)

/-- An `IDEA` object (IDEA.h:36-37). -/
structure IdeaObj where
  keyset : Bool
  k : List (BitVec 16)
  deriving DecidableEq

/-- The loop of `IDEA::setkey` (IDEA.cpp:84-103): eight 16-bit pieces, then a rotation of the 128 bits by 25. -/
def ideaSchedule : Nat → BitVec 128 → List (BitVec 16)
  | 0, _ => []
  | n + 1, key =>
    ((List.range 8).map fun y => key.extractLsb' (16 * (7 - y)) 16) ++
      ideaSchedule n ((key ++ key).extractLsb' (128 - 25) 128)

/-- `IDEA::setkey` (IDEA.cpp:74-110). -/
def ideaSetkey (o : IdeaObj) (KEY : Bytes) : Out IdeaObj :=
  if o.keyset then .throw
  else if KEY.length ≠ 16 then .throw
  else .ok ⟨true, o.k ++ (ideaSchedule 7 (BitVec.ofNat 128 (num KEY))).take 52⟩

/-- `keys` filled from `k`: eight vectors of six and one of four (IDEA.cpp:121-136, 162-175). -/
def ideaKeys (k : List (BitVec 16)) : List (List (BitVec 16)) :=
  ((List.range 8).map fun x => (List.range 6).map fun y => k.getD (6 * x + y) 0) ++
    [(List.range 4).map fun y => k.getD (48 + y) 0]

/-- `IDEA::encrypt` (IDEA.cpp:112-138). -/
def ideaEncrypt (o : IdeaObj) (DATA : Bytes) : IdeaObj × Out Bytes :=
  if !o.keyset then (o, .throw)
  else if DATA.length ≠ 8 then (o, .throw)
  else (o, ideaBlock (ideaKeys o.k) DATA)

/-- `invmod(65537, k[i])` stored in a `uint16_t`. -/
def ideaInv (k : List (BitVec 16)) (i : Nat) : Out (BitVec 16) := do
  let v ← invmod 65537 (k.getD i 0).toNat
  pure (BitVec.ofInt 16 v)

/-- The loop pushing six subkeys (IDEA.cpp:151-158), from `x` on, `n` times; `k` grows at its end, the elements read
are the first 52. -/
def ideaPushLoop (k : List (BitVec 16)) : (n x : Nat) → Out (List (BitVec 16))
  | 0, _ => .ok []
  | n + 1, x => do
    let a ← ideaInv k (48 - 6 * x)
    let d ← ideaInv k (51 - 6 * x)
    let rest ← ideaPushLoop k n (x + 1)
    pure ([a, twoComp (k.getD (50 - 6 * x) 0), twoComp (k.getD (49 - 6 * x) 0), d,
      k.getD (46 - 6 * x) 0, k.getD (47 - 6 * x) 0] ++ rest)

/-- The new value of `k` computed by `IDEA::decrypt` (IDEA.cpp:151-163). -/
def ideaDecK (k : List (BitVec 16)) : Out (List (BitVec 16)) := do
  let l ← ideaPushLoop k 8 0
  let a ← ideaInv k 0
  let d ← ideaInv k 3
  pure ((k ++ l ++ [a, twoComp (k.getD 1 0), twoComp (k.getD 2 0), d]).drop 52)

/-- `std::swap(keys[0][1], keys[0][2])` (IDEA.cpp:178). -/
def ideaSwap (keys : List (List (BitVec 16))) : List (List (BitVec 16)) :=
  match keys with
  | (a :: b :: c :: r) :: t => (a :: c :: b :: r) :: t
  | t => t

/-- `IDEA::decrypt` (IDEA.cpp:140-180): the member `k` keeps the inverted subkeys. -/
def ideaDecrypt (o : IdeaObj) (DATA : Bytes) : IdeaObj × Out Bytes :=
  if !o.keyset then (o, .throw)
  else if DATA.length ≠ 8 then (o, .throw)
  else
    match ideaDecK o.k with
    | .ok k => ({ o with k := k }, ideaBlock (ideaSwap (ideaKeys k)) DATA)
    | .throw => (o, .throw)
    | .ub => (o, .ub)
    | .diverge => (o, .diverge)

/-- The class `IDEA` (IDEA.h:34-48, IDEA.cpp:62-66, 182-184). -/
def idea : SymCipher IdeaObj where
  blocksize := 64
  fresh := ⟨false, []⟩
  setkey := ideaSetkey
  encrypt := ideaEncrypt
  decrypt := ideaDecrypt

end OpenPGP
