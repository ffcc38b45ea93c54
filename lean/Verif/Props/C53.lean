import Verif.Spec.Rng
import Mathlib.NumberTheory.LSeries.PrimesInAP
import Mathlib.Data.Set.Card
import Mathlib.Tactic.NormNum.Prime
import Mathlib.Data.Fintype.BigOperators

/-!
# C53: the random numbers of the library
-/
namespace OpenPGP

theorem parityLoop_eq (n : Nat) : ∀ t, parityLoop n t = (t ^^ onesOdd n) := by
  induction n using Nat.strong_induction_on with
  | _ n ih =>
    intro t
    rw [parityLoop]
    split
    · rename_i h
      rw [ih (n / 2) (by omega)]
      have hd : Nat.digits 2 n = n % 2 :: Nat.digits 2 (n / 2) := Nat.digits_def' (by decide) (by omega)
      have : onesOdd n = ((n % 2 == 1) ^^ onesOdd (n / 2)) := by
        simp only [onesOdd, hd, List.sum_cons]
        rcases Nat.mod_two_eq_zero_or_one n with h0 | h0 <;>
          rcases Nat.mod_two_eq_zero_or_one (Nat.digits 2 (n / 2)).sum with h1 | h1 <;>
          simp [h0, h1, Nat.add_mod]
      rw [this, Bool.xor_assoc]
    · rename_i h
      have : n = 0 := by omega
      subst this
      simp [onesOdd]

theorem bbsParity_eq (s : Bbs) (m seed j : Nat) (h : s.state = seed ^ 2 ^ j % m) (par : Parity) :
    bbsParity s par = bbsBit m seed j par := by
  cases par <;> simp [bbsParity, bbsBit, parityLoop_eq, h]

theorem bbsNext_eq (seed m j x : Nat) (hm : m % 2 = 1) (hx : x % m = seed ^ 2 ^ j % m) :
    bbsNext ⟨true, x, m⟩ = .ok ⟨true, seed ^ 2 ^ (j + 1) % m, m⟩ := by
  simp only [bbsNext, powm, hm]
  rw [if_neg (by decide)]
  simp only [Out.ok_bind]
  have : x ^ 2 % m = seed ^ 2 ^ (j + 1) % m := by
    rw [Nat.pow_mod, hx, ← Nat.pow_mod, ← pow_mul, pow_succ]
  rw [this]; rfl

theorem bbsLoop_eq (seed m : Nat) (hm : m % 2 = 1) (par : Parity) (n : Nat) : ∀ j x, x % m = seed ^ 2 ^ j % m →
    ∃ y, y % m = seed ^ 2 ^ (j + n) % m ∧
      bbsLoop par n ⟨true, x, m⟩ = .ok ((List.range n).map (fun i => bbsBit m seed (j + 1 + i) par), ⟨true, y, m⟩) := by
  induction n with
  | zero => intro j x hx; exact ⟨x, hx, by simp [bbsLoop]⟩
  | succ n ih =>
    intro j x hx
    obtain ⟨y, hy, e⟩ := ih (j + 1) (seed ^ 2 ^ (j + 1) % m) (Nat.mod_mod _ _)
    refine ⟨y, by rw [hy]; congr 3; omega, ?_⟩
    rw [bbsLoop, bbsNext_eq seed m j x hm hx, Out.ok_bind, e, Out.ok_bind]
    rw [bbsParity_eq _ m seed (j + 1) rfl par, List.range_succ_eq_map]
    simp only [List.map_cons, List.map_map, Nat.add_zero]
    show Out.ok _ = _
    congr 3
    apply List.map_congr_left
    intro i _
    simp only [Function.comp]
    congr 1
    omega

theorem unbinifyOctet_bits : ∀ a b c d e f g h, octetBits (unbinifyOctet [a, b, c, d, e, f, g, h]) = [a, b, c, d, e, f, g, h] := by
  decide

theorem unbinifyLoop_spec : ∀ (n : Nat) (l : List Bool), l.length = 8 * n →
    (unbinifyLoop l).length = n ∧ (unbinifyLoop l).flatMap octetBits = l := by
  intro n
  induction n with
  | zero =>
    intro l h
    have := List.length_eq_zero_iff.mp h
    subst this
    exact ⟨rfl, rfl⟩
  | succ n ih =>
    intro l h
    match l, h with
    | a :: b :: c :: d :: e :: f :: g :: k :: r, h =>
      simp only [List.length_cons] at h
      obtain ⟨i1, i2⟩ := ih r (by omega)
      refine ⟨by simp [unbinifyLoop, i1], ?_⟩
      rw [unbinifyLoop, List.flatMap_cons, i2, unbinifyOctet_bits]; rfl

theorem bbsInit_seeded (g : Gmp) (x m seed bits p q : Nat) : bbsInit g ⟨true, x, m⟩ seed bits p q = .ok ⟨true, x, m⟩ := by
  simp [bbsInit]

/-- One request to a seeded generator that has given out `j` bits. -/
theorem Request.run_seeded (g : Gmp) (seed m : Nat) (hm : m % 2 = 1) (r : Request) (hr : r.Fits) (j x : Nat)
    (hx : x % m = seed ^ 2 ^ j % m) :
    ∃ o y, r.run g ⟨true, x, m⟩ = .ok (o, ⟨true, y, m⟩) ∧ y % m = seed ^ 2 ^ (j + r.count) % m ∧ r.Answered o ∧
      o.toBits = (List.range r.count).map (fun i => bbsBit m seed (j + 1 + i) r.par) := by
  obtain ⟨bytes, size, par, now, now'⟩ := r
  obtain ⟨y, hy, e⟩ := bbsLoop_eq seed m hm par (Request.count ⟨bytes, size, par, now, now'⟩) j x hx
  cases bytes with
  | true =>
    simp only [Request.count, Request.Fits, if_true] at hr hy e ⊢
    have hlen : ((List.range (8 * size)).map (fun i => bbsBit m seed (j + 1 + i) par)).length = 8 * size := by simp
    obtain ⟨u1, u2⟩ := unbinifyLoop_spec size _ hlen
    refine ⟨.octets (unbinifyLoop ((List.range (8 * size)).map (fun i => bbsBit m seed (j + 1 + i) par))), y, ?_, hy, ⟨rfl, u1⟩, u2⟩
    simp only [Request.run, bbsConstruct, bbsInit_seeded, Out.ok_bind, if_true, randBytesBBS, randBits]
    rw [Nat.mul_comm size 8, Nat.mod_eq_of_lt hr, e, Out.ok_bind, unbinify, if_neg (by rw [hlen]; omega)]
    rfl
  | false =>
    simp only [Request.count, Request.Fits, Bool.false_eq_true, if_false] at hr hy e ⊢
    refine ⟨.bits ((List.range size).map (fun i => bbsBit m seed (j + 1 + i) par)), y, ?_, hy, ⟨rfl, by simp⟩, rfl⟩
    simp only [Request.run, bbsConstruct, bbsInit_seeded, Out.ok_bind, Bool.false_eq_true, if_false, randBits]
    rw [e]; rfl

theorem runRequests_seeded (g : Gmp) (seed m : Nat) (hm : m % 2 = 1) (rs : List Request) : (∀ r ∈ rs, r.Fits) → ∀ (j x : Nat),
    x % m = seed ^ 2 ^ j % m →
    ∃ outs s, runRequests g ⟨true, x, m⟩ rs = .ok (outs, s) ∧ List.Forall₂ Request.Answered rs outs ∧
      outs.flatMap Random.toBits = bbsStream m seed j rs := by
  induction rs with
  | nil => intro _ j x _; exact ⟨[], _, rfl, .nil, rfl⟩
  | cons r rs ih =>
    intro hf j x hx
    obtain ⟨o, y, e, hy, ha, hb⟩ := Request.run_seeded g seed m hm r (hf r (by simp)) j x hx
    obtain ⟨outs, s, e2, ha2, hb2⟩ := ih (fun r' h' => hf r' (by simp [h'])) (j + r.count) y hy
    refine ⟨o :: outs, s, ?_, .cons ha ha2, ?_⟩
    · rw [runRequests, e, Out.ok_bind]
      simp only [e2, Out.ok_bind]
      rfl
    · rw [List.flatMap_cons, hb, hb2, bbsStream, bbsStream, List.flatMap_cons, List.mapIdx_append]
      congr 1
      · apply List.ext_getElem <;> simp
      · apply List.ext_getElem
        · simp
        · intro i h1 h2
          simp only [List.getElem_mapIdx, List.length_replicate]
          congr 1
          omega

theorem search_prime {g : Gmp} (hg : g.Real) (a : Nat) (i : Nat) : (g.search (g.nextprime a) i).Prime := by
  cases i with
  | zero => exact (hg a).1
  | succ i => exact (hg _).1

/-- The search for `p` ends. -/
theorem findP_ok {g : Gmp} (hg : g.Real) (a : Nat) : ∃ p, g.findP (g.nextprime a) = .ok p ∧ p.Prime ∧ p % 4 = 3 := by
  have hex : ∃ i, g.search (g.nextprime a) i % 4 = 3 := by
    obtain ⟨P, hP, hPp, hP4⟩ := Nat.forall_exists_prime_gt_and_modEq (g.nextprime a + 4) (q := 4) (a := 3) (by decide) (by decide)
    have hP4 : P % 4 = 3 := hP4
    by_contra hno
    push Not at hno
    have hle : ∀ i, g.search (g.nextprime a) i + i ≤ P + i ∧ g.nextprime a + i ≤ g.search (g.nextprime a) i := by
      intro i
      induction i with
      | zero => exact ⟨by simp only [Gmp.search]; omega, by simp [Gmp.search]⟩
      | succ i ih =>
        have hne : g.search (g.nextprime a) i ≠ P := fun h => hno i (by rw [h]; exact hP4)
        have hpr := search_prime hg a i
        have hlt : g.search (g.nextprime a) i + 1 < P := by
          rcases hpr.eq_two_or_odd with h2 | h2
          · omega
          · omega
        have h3 := hg (g.search (g.nextprime a) i + 1)
        have h4 := h3.2.2 P hPp hlt
        simp only [Gmp.search]
        omega
    have := (hle (P + 1))
    omega
  refine ⟨_, by rw [Gmp.findP, dif_pos hex], search_prime hg _ _, ?_⟩
  classical
  convert Nat.find_spec hex

/-- The whole generator: there is one modulus, the product of a prime that is 3 modulo 4 and another prime, and for every sequence of
requests of a process, of bits or octets, the answers have the sizes asked for and are together the stream of the generator of
Blum, Blum and Shub seeded with the time of the first request: no bit is used twice, none is left out, and asking in pieces gives the
same as asking at once. (`hq`: the fixed number GMP yields for `q` is not 0 or 1.) -/
theorem C53_stream (g : Gmp) (hg : g.Real) (hq : 2 ≤ g.draw 1024 1) :
    ∃ p q, p.Prime ∧ q.Prime ∧ p % 4 = 3 ∧ ∀ (r : Request) (rs : List Request), (∀ x ∈ r :: rs, x.Fits) →
      ∃ outs s, runRequests g Bbs.start (r :: rs) = .ok (outs, s) ∧ List.Forall₂ Request.Answered (r :: rs) outs ∧
        outs.flatMap Random.toBits = bbsStream (p * q) (r.now % 2 ^ 32) 0 (r :: rs) := by
  obtain ⟨p, ep, hp, hp4⟩ := findP_ok hg (g.draw 1024 0)
  obtain ⟨hqp, hqlt, -⟩ := hg (g.draw 1024 1)
  refine ⟨p, g.nextprime (g.draw 1024 1), hp, hqp, hp4, ?_⟩
  intro r rs hf
  have hm : p * g.nextprime (g.draw 1024 1) % 2 = 1 := by
    rw [Nat.mul_mod]
    have h1 : p % 2 = 1 := by omega
    have h2 : g.nextprime (g.draw 1024 1) % 2 = 1 := by
      rcases hqp.eq_two_or_odd with h | h
      · omega
      · exact h
    rw [h1, h2]
  have hc : bbsConstruct g Bbs.start r.now = .ok ⟨true, r.now % 2 ^ 32, p * g.nextprime (g.draw 1024 1)⟩ := by
    simp only [bbsConstruct, bbsInit, Bbs.start, Bool.false_eq_true, if_false, if_true, ep, Out.ok_bind, Gmp.findQ, clockSeed]
  have hs : runRequests g Bbs.start (r :: rs) = runRequests g ⟨true, r.now % 2 ^ 32, p * g.nextprime (g.draw 1024 1)⟩ (r :: rs) := by
    rw [runRequests, runRequests]
    congr 1
    rw [Request.run, Request.run, hc]
    rw [show bbsConstruct g ⟨true, r.now % 2 ^ 32, p * g.nextprime (g.draw 1024 1)⟩ r.now = .ok ⟨true, r.now % 2 ^ 32, p * g.nextprime (g.draw 1024 1)⟩ from bbsInit_seeded _ _ _ _ _ _ _]
  rw [hs]
  exact runRequests_seeded g _ _ hm _ hf 0 _ (by simp)

/-- What of a request is not a reading of the clock. -/
def Request.shape (r : Request) : Bool × Nat × Parity := (r.bytes, r.size, r.par)

theorem bbsInit_isSeeded {g : Gmp} {s s' : Bbs} {a b c d : Nat} (h : bbsInit g s a b c d = .ok s') : s'.seeded = true := by
  rw [bbsInit] at h
  split at h
  · rename_i h1; obtain rfl := Out.ok.inj h; exact h1
  · obtain ⟨x, -, h⟩ := Out.bind_eq_ok.mp h
    obtain rfl := Out.ok.inj h
    rfl

theorem construct_of_seeded (g : Gmp) {s : Bbs} (h : s.seeded = true) (now : Nat) : bbsConstruct g s now = .ok s := by
  rw [bbsConstruct, bbsInit, if_pos h]

/-- With a seeded generator the clock is not used. -/
theorem Request.run_shape (g : Gmp) {s : Bbs} (h : s.seeded = true) {r r' : Request} (e : r.shape = r'.shape) :
    r.run g s = r'.run g s := by
  obtain ⟨b, n, p, x, y⟩ := r
  obtain ⟨b', n', p', x', y'⟩ := r'
  simp only [Request.shape, Prod.mk.injEq] at e
  obtain ⟨rfl, rfl, rfl⟩ := e
  simp only [Request.run, randBytesBBS, randBits, construct_of_seeded g h, Out.ok_bind]

theorem bbsLoop_isSeeded (par : Parity) (n : Nat) : ∀ {s s' : Bbs} {l : List Bool}, s.seeded = true → bbsLoop par n s = .ok (l, s') →
    s'.seeded = true := by
  induction n with
  | zero => intro s s' l hs h; obtain ⟨-, rfl⟩ := Prod.mk.inj (Out.ok.inj h); exact hs
  | succ n ih =>
    intro s s' l hs h
    rw [bbsLoop] at h
    obtain ⟨s1, h1, h⟩ := Out.bind_eq_ok.mp h
    obtain ⟨⟨l2, s2⟩, h2, h⟩ := Out.bind_eq_ok.mp h
    obtain ⟨-, rfl⟩ := Prod.mk.inj (Out.ok.inj h)
    refine ih ?_ h2
    rw [bbsNext] at h1
    obtain ⟨x, -, h1⟩ := Out.bind_eq_ok.mp h1
    obtain rfl := Out.ok.inj h1
    exact hs

theorem Request.run_isSeeded (g : Gmp) {s s' : Bbs} {r : Request} {o : Random} (h : r.run g s = .ok (o, s')) : s'.seeded = true := by
  rw [Request.run] at h
  obtain ⟨s1, h1, h⟩ := Out.bind_eq_ok.mp h
  have hs1 := bbsInit_isSeeded h1
  split at h
  · obtain ⟨⟨b, s2⟩, h2, h⟩ := Out.bind_eq_ok.mp h
    obtain ⟨-, rfl⟩ := Prod.mk.inj (Out.ok.inj h)
    simp only [randBytesBBS, randBits, construct_of_seeded g hs1, Out.ok_bind] at h2
    obtain ⟨⟨l3, s3⟩, h3, h2⟩ := Out.bind_eq_ok.mp h2
    obtain ⟨b4, h4, h2⟩ := Out.bind_eq_ok.mp h2
    obtain ⟨-, rfl⟩ := Prod.mk.inj (Out.ok.inj h2)
    exact bbsLoop_isSeeded _ _ hs1 h3
  · obtain ⟨⟨b, s2⟩, h2, h⟩ := Out.bind_eq_ok.mp h
    obtain ⟨-, rfl⟩ := Prod.mk.inj (Out.ok.inj h)
    simp only [randBits, construct_of_seeded g hs1, Out.ok_bind] at h2
    exact bbsLoop_isSeeded _ _ hs1 h2

theorem runRequests_shape (g : Gmp) : ∀ (rs rs' : List Request) {s : Bbs}, s.seeded = true → rs.map Request.shape = rs'.map Request.shape →
    runRequests g s rs = runRequests g s rs' := by
  intro rs
  induction rs with
  | nil =>
    intro rs' s hs e
    have : rs' = [] := by simpa using e.symm
    rw [this]
  | cons r rs ih =>
    intro rs' s hs e
    match rs', e with
    | r' :: rs', e =>
      simp only [List.map_cons, List.cons.injEq] at e
      rw [runRequests, runRequests, Request.run_shape g hs e.1]
      cases hr : r'.run g s with
      | ok x =>
        obtain ⟨o, s1⟩ := x
        simp only [Out.ok_bind]
        rw [ih rs' (Request.run_isSeeded g hr) e.2]
      | throw => rfl
      | ub => rfl
      | diverge => rfl

/-- Processes that make the same requests and make the first of them in the same second (of the 32-bit clock) get the same random
numbers: the same keys, session keys and DSA nonces. -/
theorem C53_same_second_fails (g : Gmp) (r r' : Request) (rs rs' : List Request)
    (hs : (r :: rs).map Request.shape = (r' :: rs').map Request.shape) (hn : r.now % 2 ^ 32 = r'.now % 2 ^ 32) :
    runRequests g Bbs.start (r :: rs) = runRequests g Bbs.start (r' :: rs') := by
  have h0 : ∀ (x : Request) (xs : List Request), runRequests g Bbs.start (x :: xs) =
      (bbsConstruct g Bbs.start x.now).bind fun s => runRequests g s (x :: xs) := by
    intro x xs
    rw [runRequests, Request.run]
    cases hc : bbsConstruct g Bbs.start x.now with
    | ok s =>
      have := bbsInit_isSeeded hc
      show _ = runRequests g s (x :: xs)
      rw [runRequests, Request.run, construct_of_seeded g this]
    | throw => rfl
    | ub => rfl
    | diverge => rfl
  rw [h0, h0]
  have e : bbsConstruct g Bbs.start r.now = bbsConstruct g Bbs.start r'.now := by
    simp only [bbsConstruct, clockSeed, hn]
  rw [e]
  cases hc : bbsConstruct g Bbs.start r'.now with
  | ok s => exact runRequests_shape g _ _ (bbsInit_isSeeded hc) hs
  | throw => rfl
  | ub => rfl
  | diverge => rfl

/-- Whatever the requests of a process and however many bits they ask for, at most `2 ^ 32` different results are possible over
all clock readings. -/
theorem C53_few_results_fails (g : Gmp) (shapes : List (Bool × Nat × Parity)) :
    {outs | ∃ rs s, rs.map Request.shape = shapes ∧ runRequests g Bbs.start rs = .ok (outs, s)}.ncard ≤ 2 ^ 32 := by
  classical
  let mk : Nat → List Request := fun k => shapes.map fun x => ⟨x.1, x.2.1, x.2.2, k, k⟩
  have hmk : ∀ k, (mk k).map Request.shape = shapes := by
    intro k
    simp only [mk, List.map_map]
    conv_rhs => rw [← List.map_id shapes]
    apply List.map_congr_left
    intro x _
    rfl
  let f : Nat → List Random := fun k => match runRequests g Bbs.start (mk k) with
    | .ok x => x.1
    | _ => []
  have hsub : {outs | ∃ rs s, rs.map Request.shape = shapes ∧ runRequests g Bbs.start rs = .ok (outs, s)} ⊆
      ((Finset.range (2 ^ 32)).image f : Finset (List Random)) := by
    rintro outs ⟨rs, s, e, h⟩
    rw [Finset.mem_coe, Finset.mem_image]
    match rs, e, h with
    | [], e, h =>
      refine ⟨0, by simp, ?_⟩
      have : mk 0 = [] := by simp only [mk]; rw [← e]; rfl
      simp only [f, this]
      rw [show runRequests g Bbs.start [] = .ok (outs, s) from h]
    | r :: rs, e, h =>
      refine ⟨r.now % 2 ^ 32, Finset.mem_range.mpr (Nat.mod_lt _ (by decide)), ?_⟩
      have he : (r :: rs).map Request.shape = (mk (r.now % 2 ^ 32)).map Request.shape := by rw [hmk, e]
      have hh : (mk (r.now % 2 ^ 32)).head? = some ⟨r.bytes, r.size, r.par, r.now % 2 ^ 32, r.now % 2 ^ 32⟩ := by
        simp only [mk, ← e, List.map_cons, List.head?_cons]
        rfl
      obtain ⟨rs', hrs⟩ : ∃ rs', mk (r.now % 2 ^ 32) = ⟨r.bytes, r.size, r.par, r.now % 2 ^ 32, r.now % 2 ^ 32⟩ :: rs' := by
        cases hm : mk (r.now % 2 ^ 32) with
        | nil => rw [hm] at hh; cases hh
        | cons a l => rw [hm] at hh; exact ⟨l, by rw [Option.some.inj hh]⟩
      rw [hrs] at he
      have := C53_same_second_fails g r _ rs rs' he (by simp)
      simp only [f]
      rw [hrs, ← this, h]
  calc _ ≤ (((Finset.range (2 ^ 32)).image f : Finset (List Random)) : Set (List Random)).ncard :=
        Set.ncard_le_ncard hsub (Finset.finite_toSet _)
    _ = ((Finset.range (2 ^ 32)).image f).card := Set.ncard_coe_finset _
    _ ≤ (Finset.range (2 ^ 32)).card := Finset.card_image_le
    _ = 2 ^ 32 := Finset.card_range _

/-- So from five octets on there are keys (salts, nonces) that no process ever draws, at whatever place in its requests: of the
`256 ^ n` strings of `n` octets all but `2 ^ 32` are impossible. -/
theorem C53_session_key_fails (g : Gmp) (shapes : List (Bool × Nat × Parity)) (n : Nat) (hn : 5 ≤ n) (place : Nat) :
    ∃ key : Bytes, key.length = n ∧ ∀ (rs : List Request) (outs : List Random) (s : Bbs), rs.map Request.shape = shapes →
      runRequests g Bbs.start rs = .ok (outs, s) → outs[place]? ≠ some (.octets key) := by
  classical
  by_contra hno
  push Not at hno
  let S := {outs | ∃ rs s, rs.map Request.shape = shapes ∧ runRequests g Bbs.start rs = .ok (outs, s)}
  have hS : S.Finite ∨ S.Infinite := S.finite_or_infinite
  let pick : List Random → Option Random := fun o => o[place]?
  let K := {k : Option Random | ∃ key : Bytes, key.length = n ∧ k = some (.octets key)}
  have hsub : K ⊆ pick '' S := by
    rintro k ⟨key, hk, rfl⟩
    obtain ⟨rs, outs, s, h1, h2, h3⟩ := hno key hk
    exact ⟨outs, ⟨rs, s, h1, h2⟩, h3⟩
  have hfin : S.Finite := by
    -- the same set of at most 2 ^ 32 results
    refine Set.Finite.subset (s := ⋃ k ∈ Finset.range (2 ^ 32), {outs | ∃ s, runRequests g Bbs.start
      (shapes.map fun x => ⟨x.1, x.2.1, x.2.2, k, k⟩) = .ok (outs, s)}) ?_ ?_
    · refine Set.Finite.biUnion (Finset.finite_toSet _) fun k _ => ?_
      refine Set.Subsingleton.finite ?_
      rintro a ⟨s, h⟩ b ⟨s', h'⟩
      rw [h] at h'
      exact (Prod.mk.inj (Out.ok.inj h')).1
    · rintro outs ⟨rs, s, e, h⟩
      simp only [Set.mem_iUnion, Finset.mem_range]
      match rs, e, h with
      | [], e, h =>
        refine ⟨0, by decide, s, ?_⟩
        rw [← e]; exact h
      | r :: rs, e, h =>
        refine ⟨r.now % 2 ^ 32, Nat.mod_lt _ (by decide), s, ?_⟩
        rw [← e, List.map_cons, List.map_cons, ← h]
        refine (C53_same_second_fails g _ _ _ _ ?_ ?_).symm
        · simp only [List.map_cons, List.map_map]
          congr 1
        · simp
  have hK : K.ncard ≤ 2 ^ 32 :=
    ((Set.ncard_le_ncard hsub (hfin.image _)).trans (Set.ncard_image_le hfin)).trans (C53_few_results_fails g shapes)
  have hK2 : K.ncard = 256 ^ n := by
    have : K = Set.range (fun v : List.Vector UInt8 n => some (Random.octets v.toList)) := by
      ext k
      constructor
      · rintro ⟨key, hk, rfl⟩; exact ⟨⟨key, hk⟩, rfl⟩
      · rintro ⟨v, rfl⟩; exact ⟨v.toList, v.toList_length, rfl⟩
    rw [this, Set.ncard_range_of_injective]
    · have e : Nat.card (List.Vector UInt8 n) = Nat.card (List.Vector (Fin 256) n) := by
        refine Nat.card_congr ⟨fun v => v.map (fun x => x.toFin), fun v => v.map (fun x => ⟨⟨x⟩⟩), ?_, ?_⟩
        · intro v
          apply List.Vector.toList_injective
          simp [Function.comp_def]
        · intro v
          apply List.Vector.toList_injective
          simp [Function.comp_def]
      rw [e, Nat.card_eq_fintype_card, card_vector, Fintype.card_fin]
    · intro a b h
      exact List.Vector.toList_injective (Random.octets.inj (Option.some.inj h))
  have : 256 ^ 5 ≤ 256 ^ n := Nat.pow_le_pow_right (by decide) hn
  omega

/-- The second prime is not searched for: `while (… && (pq_gcd < 1024))` starts with `pq_gcd = 1025`. When the prime above GMP's number is
1 modulo 4 the modulus is not a Blum integer. -/
theorem C53_blum_fails (g : Gmp) (hg : g.Real) (now : Nat) (hq : g.nextprime (g.draw 1024 1) % 4 = 1) :
    ∃ p q, p.Prime ∧ q.Prime ∧ q % 4 = 1 ∧ bbsConstruct g Bbs.start now = .ok ⟨true, now % 2 ^ 32, p * q⟩ := by
  obtain ⟨p, ep, hp, -⟩ := findP_ok hg (g.draw 1024 0)
  refine ⟨p, _, hp, (hg (g.draw 1024 1)).1, hq, ?_⟩
  simp only [bbsConstruct, bbsInit, Bbs.start, Bool.false_eq_true, if_false, if_true, ep, Out.ok_bind, Gmp.findQ, clockSeed]

/-- A clock that reads 0 (or a multiple of `2 ^ 32`) makes a generator whose bits are all zero. -/
theorem C53_zero_clock (m j : Nat) : bbsBit m 0 j .even = false ∧ bbsBit m 0 j .least = false ∧ bbsBit m 0 j .odd = true := by
  have : (0 : Nat) ^ 2 ^ j % m = 0 := by rw [zero_pow (by positivity), Nat.zero_mod]
  simp only [bbsBit, this, onesOdd]
  decide

/-- `rand_bytes` of `2 ^ 29` octets returns the empty string: the number of bits is computed in 32 bits. -/
theorem C53_large_request_fails (g : Gmp) (x m now : Nat) (par : Parity) :
    randBytesBBS g ⟨true, x, m⟩ now (2 ^ 29) par = .ok ([], ⟨true, x, m⟩) := by
  simp only [randBytesBBS, randBits, bbsConstruct, bbsInit_seeded, Out.ok_bind]
  rfl

/-- Numbers that meet the hypotheses. -/
noncomputable def demoGmp : Gmp where
  draw := fun _ i => 100 + i
  nextprime := fun n => Nat.find (Nat.exists_infinite_primes (n + 1))

theorem demoGmp_real : demoGmp.Real := by
  intro n
  have h := Nat.find_spec (Nat.exists_infinite_primes (n + 1))
  refine ⟨h.2, h.1, fun p hp hn => Nat.find_min' _ ⟨hn, hp⟩⟩

example : demoGmp.Real ∧ 2 ≤ demoGmp.draw 1024 1 ∧ demoGmp.nextprime (demoGmp.draw 1024 1) % 4 = 3 ∧
    demoGmp.nextprime 104 % 4 = 3 ∧ demoGmp.nextprime 100 % 4 = 1 := by
  have key : ∀ n p, p.Prime → n < p → (∀ k, n < k → k < p → ¬ k.Prime) → demoGmp.nextprime n = p := by
    intro n p hp hn hk
    have h := demoGmp_real n
    refine le_antisymm (h.2.2 p hp hn) ?_
    by_contra hlt
    exact hk _ h.2.1 (by omega) h.1
  have h101 : demoGmp.nextprime 101 = 103 := key 101 103 (by norm_num) (by decide) (by
    intro k h1 h2; interval_cases k; norm_num)
  have h104 : demoGmp.nextprime 104 = 107 := key 104 107 (by norm_num) (by decide) (by
    intro k h1 h2; interval_cases k <;> norm_num)
  have h100 : demoGmp.nextprime 100 = 101 := key 100 101 (by norm_num) (by decide) (by
    intro k h1 h2; omega)
  refine ⟨demoGmp_real, by decide, ?_, ?_, ?_⟩
  · show demoGmp.nextprime 101 % 4 = 3; rw [h101]
  · rw [h104]
  · rw [h100]

/-- The first sixteen bits with the modulus 7 · 11 and the seed 5: `5^2, 5^4, …` are 25, 9, 4, 16, 25, …. -/
example : bbsLoop .least 16 ⟨true, 5, 77⟩ = .ok ((List.range 16).map (fun i => bbsBit 77 5 (1 + i) .least), ⟨true, 16, 77⟩) ∧
    unbinify ((List.range 16).map (fun i => bbsBit 77 5 (1 + i) .least)) = .ok [0xcc, 0xcc] := by
  decide +kernel

end OpenPGP
