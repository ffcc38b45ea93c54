import Verif.Lemmas.HashCompress
import Verif.Lemmas.Includes
import Verif.Spec.HashHistory

/-! The `update`/`digest` skeleton: any history of calls hashes the concatenation of the pieces. -/
namespace OpenPGP

theorem toLittleEnd_ok (d : Bytes) (h : d.length < 2 ^ 32) : toLittleEnd d = .ok (leWords d) := by
  have h1 : ¬ 2 ^ 32 ≤ d.length / 4 := by omega
  rw [toLittleEnd, if_neg h1]
  congr 1
  have hc : ∀ x ∈ List.range (d.length / 4), littleEnd256 ((d.drop (x * 4 % 2 ^ 32)).take 4) =
      ((d.drop (x * 4)).take 4).reverse := by
    intro x hx
    have := List.mem_range.mp hx
    rw [Nat.mod_eq_of_lt (by omega), littleEnd256]
  rw [List.flatMap_congr hc]
  clear hc h1 h
  induction d using leWords.induct with
  | case1 a b c d r ih =>
    have : (a :: b :: c :: d :: r).length / 4 = r.length / 4 + 1 := by simp; omega
    rw [this, List.range_succ_eq_map, List.flatMap_cons, List.flatMap_map, leWords, ← ih]
    simp [Nat.add_mul]
  | case2 b h =>
    rw [leWords]
    · have : b.length / 4 = 0 := by
        rcases b with _ | ⟨a, _ | ⟨b, _ | ⟨c, _ | ⟨d, r⟩⟩⟩⟩
        · simp
        · simp
        · simp
        · simp
        · exact (h _ _ _ _ _ rfl).elim
      rw [this]; rfl
    · exact h

/-- A block as `calc` receives it. -/
def HashAlg.conv {S : Type} (alg : HashAlg S) (b : Bytes) : Bytes := if alg.little then leWords b else b

theorem convert_ok {S : Type} (alg : HashAlg S) (d : Bytes) (h : d.length < 2 ^ 32) :
    alg.convert d = .ok (alg.conv d) := by
  rw [HashAlg.convert, HashAlg.conv]
  split
  · exact toLittleEnd_ok d h
  · rfl

/-- What it takes for a class to implement an iterated hash function. -/
structure Implements {S T : Type} (alg : HashAlg S) (φ : S → T) (comp : T → Bytes → T) (init : T)
    (enc : Nat → Bytes) (out : T → Bytes) : Prop where
  bs4 : ∃ k, alg.bs = 4 * k
  bs_pos : alg.limit + 1 + alg.lenSize = alg.bs
  len8 : 8 ≤ alg.lenSize
  bs_le : alg.bs ≤ 128
  compress : ∀ s b, b.length = alg.bs → φ (alg.compress (alg.conv b) s) = comp (φ s) b
  init : φ alg.init = init
  enc : ∀ n, n < 2 ^ 64 → if alg.little then enc n = (be 8 n).reverse ∧ alg.lenSize = 8 else enc n = be alg.lenSize n
  hex : ∀ s, unhexlify (alg.hex s) = .ok (out (φ s))

theorem conv_length {S : Type} (alg : HashAlg S) (b : Bytes) (h : ∃ k, b.length = 4 * k) :
    (alg.conv b).length = b.length := by
  obtain ⟨k, hk⟩ := h
  rw [HashAlg.conv]; split
  · rw [leWords_length]; omega
  · rfl

theorem conv_block {S : Type} (alg : HashAlg S) (h4 : ∃ k, alg.bs = 4 * k) (d : Bytes) (n : Nat) :
    ((alg.conv d).drop (n * alg.bs)).take alg.bs = alg.conv ((d.drop (n * alg.bs)).take alg.bs) := by
  obtain ⟨k, hk⟩ := h4
  rw [HashAlg.conv, HashAlg.conv]; split
  · rw [hk, show n * (4 * k) = 4 * (n * k) by ring, leWords_drop, leWords_take]
  · rfl

theorem iterate_append {T : Type} (bs : Nat) (hbs : 0 < bs) (comp : T → Bytes → T) (s : T) (a b : Bytes) (k : Nat)
    (ha : a.length = k * bs) :
    Std.iterate bs comp s (a ++ b) = Std.iterate bs comp (Std.iterate bs comp s a) b := by
  rw [Std.iterate, Std.iterate, Std.iterate]
  have h1 : (a ++ b).length / bs = k + b.length / bs := by
    rw [List.length_append, ha, Nat.add_comm, Nat.add_mul_div_right _ _ hbs, Nat.add_comm]
  have h2 : a.length / bs = k := by rw [ha, Nat.mul_div_cancel _ hbs]
  rw [h1, h2, List.range_add, List.map_append, List.foldl_append]
  have e1 : (List.range k).map (Std.blockOf bs (a ++ b)) = (List.range k).map (Std.blockOf bs a) := by
    apply List.map_congr_left
    intro i hi
    have hi := List.mem_range.mp hi
    have : (i + 1) * bs ≤ k * bs := Nat.mul_le_mul_right _ hi
    rw [Nat.add_mul] at this
    rw [Std.blockOf, Std.blockOf, List.drop_append_of_le_length (by omega),
      List.take_append_of_le_length (by simp; omega)]
  have e2 : ((List.range (b.length / bs)).map fun x => k + x).map (Std.blockOf bs (a ++ b)) =
      (List.range (b.length / bs)).map (Std.blockOf bs b) := by
    rw [List.map_map]
    apply List.map_congr_left
    intro i _
    simp only [Function.comp, Std.blockOf]
    rw [Nat.add_mul, ← ha, List.drop_length_add_append]
  rw [e1, e2]

theorem iterate_nil {T : Type} (bs : Nat) (comp : T → Bytes → T) (s : T) : Std.iterate bs comp s [] = s := by
  simp [Std.iterate]

variable {S T : Type} {alg : HashAlg S} {φ : S → T} {comp : T → Bytes → T} {ini : T} {enc : Nat → Bytes}
  {out : T → Bytes}

theorem calc_ok (H : Implements alg φ comp ini enc out) (d : Bytes) (k : Nat) (hk : d.length = k * alg.bs)
    (hd : d.length < 2 ^ 32) (st : S) :
    ∃ st', alg.calc (alg.conv d) st = .ok st' ∧ φ st' = Std.iterate alg.bs comp (φ st) d := by
  have hbs : 0 < alg.bs := by have := H.bs_pos; have := H.len8; omega
  have hlen : (alg.conv d).length = d.length := by
    obtain ⟨j, hj⟩ := H.bs4
    exact conv_length alg d ⟨k * j, by rw [hk, hj]; ring⟩
  have hdiv : d.length / alg.bs = k := by rw [hk, Nat.mul_div_cancel _ hbs]
  have hkd : k ≤ d.length := by rw [hk]; exact Nat.le_mul_of_pos_right _ hbs
  rw [HashAlg.calc, hlen, hdiv, if_neg (by omega)]
  refine ⟨_, rfl, ?_⟩
  rw [Std.iterate, hdiv]
  have key : ∀ n ≤ k, φ ((List.range n).foldl
      (fun s n => alg.compress (((alg.conv d).drop (n * alg.bs % 2 ^ 32)).take alg.bs) s) st) =
      ((List.range n).map (Std.blockOf alg.bs d)).foldl comp (φ st) := by
    intro n hn
    induction n with
    | zero => rfl
    | succ n ih =>
      have hle : (n + 1) * alg.bs ≤ k * alg.bs := Nat.mul_le_mul_right _ hn
      rw [Nat.add_mul] at hle
      rw [List.range_succ, List.map_append, List.foldl_append, List.foldl_append, ← ih (by omega)]
      simp only [List.foldl_cons, List.foldl_nil, List.map_cons, List.map_nil]
      rw [Nat.mod_eq_of_lt (by omega), conv_block alg H.bs4]
      exact H.compress _ _ (by simp; omega)
  exact key k le_rfl

/-- The object after hashing `m`. -/
structure Holds (alg : HashAlg S) (φ : S → T) (comp : T → Bytes → T) (ini : T) (m : Bytes) (o : HashObj S) : Prop where
  stack : o.stack = m.drop (m.length / alg.bs * alg.bs)
  clen : o.clen = m.length / alg.bs * alg.bs
  ctx : φ o.ctx = Std.iterate alg.bs comp ini (m.take (m.length / alg.bs * alg.bs))

theorem holds_fresh (H : Implements alg φ comp ini enc out) : Holds alg φ comp ini [] alg.fresh := by
  refine ⟨by simp [HashAlg.fresh], by simp [HashAlg.fresh], ?_⟩
  simp [HashAlg.fresh, iterate_nil, H.init]

theorem update_ok (H : Implements alg φ comp ini enc out) (m s : Bytes) (o : HashObj S)
    (ho : Holds alg φ comp ini m o) (hs : o.stack.length + s.length < 2 ^ 32) (hm : (m ++ s).length < 2 ^ 64) :
    ∃ o', alg.update o s = .ok o' ∧ Holds alg φ comp ini (m ++ s) o' := by
  have hbs : 0 < alg.bs := by have := H.bs_pos; have := H.len8; omega
  obtain ⟨stack, clen, ctx⟩ := ho
  have hq : m.length / alg.bs * alg.bs ≤ m.length := Nat.div_mul_le_self _ _
  have hsl : o.stack.length = m.length - m.length / alg.bs * alg.bs := by rw [stack]; simp
  obtain ⟨q, hqd⟩ : ∃ q, m.length / alg.bs = q := ⟨_, rfl⟩
  rw [hqd] at hq hsl stack clen ctx
  obtain ⟨r, hrd⟩ : ∃ r, (o.stack ++ s).length / alg.bs = r := ⟨_, rfl⟩
  have hdata : (m ++ s).drop (q * alg.bs) = o.stack ++ s := by
    rw [stack, List.drop_append_of_le_length hq]
  have hlen : (m ++ s).length = q * alg.bs + (o.stack ++ s).length := by
    simp only [List.length_append]; omega
  have hdiv : (m ++ s).length / alg.bs = q + r := by
    rw [hlen, Nat.add_comm, Nat.add_mul_div_right _ _ hbs, hrd, Nat.add_comm]
  have hrle : r * alg.bs ≤ (o.stack ++ s).length := by rw [← hrd]; exact Nat.div_mul_le_self _ _
  have htake : ((o.stack ++ s).take (r * alg.bs)).length = r * alg.bs := by rw [List.length_take]; omega
  have hlt : ((o.stack ++ s).take (r * alg.bs)).length < 2 ^ 32 := by
    rw [htake]; simp only [List.length_append] at hrle; omega
  obtain ⟨st', hc, hφ⟩ := calc_ok H ((o.stack ++ s).take (r * alg.bs)) r htake hlt o.ctx
  refine ⟨⟨st', if (o.stack ++ s).length - r * alg.bs = 0 then [] else
    ((o.stack ++ s).drop (r * alg.bs)).take ((o.stack ++ s).length - r * alg.bs),
    (o.clen + r * alg.bs) % 2 ^ 64⟩, ?_, ?_⟩
  · rw [HashAlg.update]
    simp only [hrd]
    rw [convert_ok alg _ hlt, Out.ok_bind, hc, Out.ok_bind]
    rfl
  · constructor
    · show (if _ then _ else _) = _
      rw [hdiv, Nat.add_mul, ← List.drop_drop, hdata]
      split
      · rename_i h0
        rw [List.drop_eq_nil_of_le (by omega)]
      · rw [List.take_of_length_le (by simp)]
    · show (o.clen + r * alg.bs) % 2 ^ 64 = _
      rw [hdiv, clen, Nat.add_mul, Nat.mod_eq_of_lt]
      simp only [List.length_append] at *; omega
    · show φ st' = _
      rw [hφ, ctx, hdiv, Nat.add_mul, List.take_add, hdata,
        iterate_append alg.bs hbs comp ini _ _ q (by rw [List.length_take, List.length_append]; omega),
        List.take_append_of_le_length hq]

theorem lastBlocks_ok (H : Implements alg φ comp ini enc out) (m : Bytes) (o : HashObj S)
    (ho : Holds alg φ comp ini m o) (hm : m.length < 2 ^ 61) :
    ∃ p, alg.lastBlocks o = .ok (alg.conv p) ∧
      m.take (m.length / alg.bs * alg.bs) ++ p = Std.pad alg.bs alg.lenSize enc m ∧ (∃ k, p.length = k * alg.bs) ∧
      p.length ≤ 2 * alg.bs := by
  have hbsp := H.bs_pos
  have hl8 := H.len8
  have hle := H.bs_le
  have hbs : 0 < alg.bs := by omega
  obtain ⟨stack, clen, ctx⟩ := ho
  have hq : m.length / alg.bs * alg.bs ≤ m.length := Nat.div_mul_le_self _ _
  have hmod : m.length % alg.bs = m.length - m.length / alg.bs * alg.bs := by
    have := Nat.div_add_mod' m.length alg.bs; omega
  have hmlt := Nat.mod_lt m.length hbs
  have hsl : o.stack.length = m.length % alg.bs := by rw [stack, hmod]; simp
  have hz : ∀ l, l < alg.bs → (if alg.limit < l then alg.bs + alg.limit else alg.limit) - l =
      (alg.bs - (l + 1 + alg.lenSize) % alg.bs) % alg.bs := by
    intro l hl
    split
    · rename_i h
      by_cases h2 : l + 1 + alg.lenSize < 2 * alg.bs
      · rw [show (l + 1 + alg.lenSize) % alg.bs = l + 1 + alg.lenSize - alg.bs by
          rw [Nat.mod_eq_sub_mod (by omega), Nat.mod_eq_of_lt (by omega)]]
        rw [Nat.mod_eq_of_lt (by omega)]; omega
      · omega
    · rename_i h
      by_cases h2 : l + 1 + alg.lenSize = alg.bs
      · rw [h2, Nat.mod_self]; simp; omega
      · rw [Nat.mod_eq_of_lt (show l + 1 + alg.lenSize < alg.bs by omega), Nat.mod_eq_of_lt (by omega)]; omega
  obtain ⟨z, hzd⟩ : ∃ z, (alg.bs - (m.length + 1 + alg.lenSize) % alg.bs) % alg.bs = z := ⟨_, rfl⟩
  have hz' : (if alg.limit < m.length % alg.bs then alg.bs + alg.limit else alg.limit) - m.length % alg.bs = z := by
    rw [hz _ hmlt, ← hzd]
    congr 2
    rw [Nat.add_assoc, Nat.add_assoc m.length, Nat.mod_add_mod]
  have hzb : z < alg.bs := by rw [← hzd]; exact Nat.mod_lt _ hbs
  have hblk : ∃ k, m.length % alg.bs + 1 + z + alg.lenSize = k * alg.bs := by
    rw [← hz']
    split
    · exact ⟨2, by omega⟩
    · exact ⟨1, by omega⟩
  have hlenval : (o.clen + o.stack.length) * 8 % 2 ^ 64 = 8 * m.length := by
    rw [clen, hsl, hmod]
    have : m.length / alg.bs * alg.bs + (m.length - m.length / alg.bs * alg.bs) = m.length := by omega
    rw [this, Nat.mod_eq_of_lt (by omega), Nat.mul_comm]
  have henc := H.enc (8 * m.length) (by omega)
  have hencl : (enc (8 * m.length)).length = alg.lenSize := by
    split at henc
    · rw [henc.1, henc.2]; simp
    · rw [henc]; simp
  refine ⟨o.stack ++ [0x80] ++ List.replicate z 0 ++ enc (8 * m.length), ?_, ?_, ?_, ?_⟩
  · rw [HashAlg.lastBlocks]
    simp only [hsl, Nat.mod_mod]
    rw [← hsl, hlenval, unhexlify_makehex, Out.ok_bind, hsl, hz']
    by_cases hlit : alg.little = true
    · rw [if_pos hlit] at henc
      obtain ⟨k4, hk4⟩ := H.bs4
      obtain ⟨kb, hkb⟩ := hblk
      have hl4 : ∃ j, (o.stack ++ [0x80] ++ List.replicate z 0).length = 4 * j := by
        refine ⟨kb * k4 - 2, ?_⟩
        have e1 : kb * alg.bs = 4 * (kb * k4) := by rw [hk4]; ring
        simp only [List.length_append, List.length_singleton, List.length_replicate, hsl]
        have := henc.2
        omega
      obtain ⟨j, hj⟩ := hl4
      rw [if_pos hlit, toLittleEnd_ok _ (by
        simp only [List.length_append, List.length_singleton, List.length_replicate, hsl]; omega), Out.ok_bind]
      rw [HashAlg.conv, if_pos hlit, leWords_append _ _ j hj, henc.1, henc.2]
      congr 2
    · rw [if_neg hlit] at henc ⊢
      rw [HashAlg.conv, if_neg hlit, henc]
      rfl
  · rw [Std.pad, hzd, stack]
    simp only [← List.append_assoc, List.take_append_drop]
  · obtain ⟨k, hk⟩ := hblk
    refine ⟨k, ?_⟩
    simp only [List.length_append, List.length_singleton, List.length_replicate, hsl, hencl]
    omega
  · simp only [List.length_append, List.length_singleton, List.length_replicate, hsl, hencl]
    rw [← hz']
    split <;> omega

/-- The digest of the hash function that a class implements. -/
def mdHash (alg : HashAlg S) (comp : T → Bytes → T) (ini : T) (enc : Nat → Bytes) (out : T → Bytes) (m : Bytes) : Bytes :=
  out (Std.iterate alg.bs comp ini (Std.pad alg.bs alg.lenSize enc m))

theorem digest_ok (H : Implements alg φ comp ini enc out) (m : Bytes) (o : HashObj S)
    (ho : Holds alg φ comp ini m o) (hm : m.length < 2 ^ 61) :
    alg.digest o = .ok (o, mdHash alg comp ini enc out m) := by
  have hbs : 0 < alg.bs := by have := H.bs_pos; have := H.len8; omega
  obtain ⟨p, hp, hpad, ⟨k, hk⟩, hple⟩ := lastBlocks_ok H m o ho hm
  have := H.bs_le
  obtain ⟨st', hc, hφ⟩ := calc_ok H p k hk (by omega) o.ctx
  rw [HashAlg.digest, HashAlg.hexdigest, hp, Out.ok_bind, hc, Out.ok_bind, Out.pure_eq, Out.ok_bind]
  dsimp only
  rw [H.hex, Out.ok_bind, hφ, ho.ctx, mdHash, ← hpad,
    iterate_append alg.bs hbs comp ini _ _ (m.length / alg.bs) (by
      rw [List.length_take]; exact Nat.min_eq_left (Nat.div_mul_le_self _ _))]
  rfl

theorem run_ok (H : Implements alg φ comp ini enc out) (cs : List HashCall) (m : Bytes) (o : HashObj S)
    (ho : Holds alg φ comp ini m o) (hs : ∀ s, HashCall.update s ∈ cs → s.length + alg.bs ≤ 2 ^ 32)
    (ht : m.length + totalInput cs < 2 ^ 61) :
    alg.run cs o = .ok (expectedDigests (mdHash alg comp ini enc out) cs m) := by
  have hbs : 0 < alg.bs := by have := H.bs_pos; have := H.len8; omega
  induction cs generalizing m o with
  | nil => rfl
  | cons c cs ih =>
    cases c with
    | update s =>
      simp only [totalInput] at ht
      have hsl : o.stack.length < alg.bs := by
        rw [ho.stack, List.length_drop]
        have := Nat.mod_lt m.length hbs
        have := Nat.div_add_mod' m.length alg.bs
        omega
      have h1 := hs s (by simp)
      obtain ⟨o', hu, ho'⟩ := update_ok H m s o ho (by omega) (by simp; omega)
      rw [HashAlg.run, hu, Out.ok_bind, expectedDigests]
      exact ih (m ++ s) o' ho' (fun s hs' => hs s (by simp [hs'])) (by simp; omega)
    | digest =>
      simp only [totalInput] at ht
      rw [HashAlg.run, digest_ok H m o ho (by omega), Out.ok_bind]
      dsimp only
      rw [ih m o ho (fun s hs' => hs s (by simp [hs'])) ht, Out.ok_bind, expectedDigests]
      rfl

theorem use_ok (H : Implements alg φ comp ini enc out) (m : Bytes) (hm : m.length < 2 ^ 32) :
    alg.use m = .ok (mdHash alg comp ini enc out m) := by
  obtain ⟨o', hu, ho'⟩ := update_ok H [] m alg.fresh (holds_fresh H) (by simpa [HashAlg.fresh] using hm) (by simp; omega)
  rw [List.nil_append] at ho'
  rw [HashAlg.use, hu, Out.ok_bind, digest_ok H m o' ho' (by omega), Out.ok_bind]
  rfl

end OpenPGP
