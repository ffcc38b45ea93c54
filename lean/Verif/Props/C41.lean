import Verif.Props.C49
import Verif.Model.Pkcs1

/-!
# C41: hashing in pieces equals hashing at once

`builtinRun alg calls` is the list of digests that a freshly constructed hash object returns over a history of
`update` and `digest` calls; `expectedDigests` (Spec/HashHistory.lean) is the list one expects: every digest is
the standard's hash of everything passed to `update` so far.
-/
namespace OpenPGP

/-- Every history of calls, on every built-in hash, returns the digests of the concatenations; a `digest` call does
not disturb later calls.  Each piece must be shorter than 4 GiB minus one block and the total shorter than 2^61
octets. -/
theorem C41_pieces (alg : UInt8) (H : Bytes → Bytes) (hH : Std.hashOf alg = some H) (calls : List HashCall)
    (hp : ∀ s, HashCall.update s ∈ calls → s.length + 128 ≤ 2 ^ 32) (ht : totalInput calls < 2 ^ 61) :
    builtinRun alg calls = .ok (expectedDigests H calls []) := by
  rw [Std.hashOf] at hH
  rw [builtinRun]
  have ht' : ([] : Bytes).length + totalInput calls < 2 ^ 61 := by simpa using ht
  split_ifs at hH ⊢ <;> obtain rfl := Option.some.inj hH
  · exact run_ok md5_implements calls [] _ (holds_fresh md5_implements)
      (fun s hs => by have := hp s hs; show s.length + 64 ≤ _; omega) ht'
  · exact run_ok sha1_implements calls [] _ (holds_fresh sha1_implements)
      (fun s hs => by have := hp s hs; show s.length + 64 ≤ _; omega) ht'
  · exact run_ok ripemd160_implements calls [] _ (holds_fresh ripemd160_implements)
      (fun s hs => by have := hp s hs; show s.length + 64 ≤ _; omega) ht'
  · exact run_ok sha256_implements calls [] _ (holds_fresh sha256_implements)
      (fun s hs => by have := hp s hs; show s.length + 64 ≤ _; omega) ht'
  · exact run_ok sha384_implements calls [] _ (holds_fresh sha384_implements) hp ht'
  · exact run_ok sha512_implements calls [] _ (holds_fresh sha512_implements) hp ht'
  · exact run_ok sha224_implements calls [] _ (holds_fresh sha224_implements)
      (fun s hs => by have := hp s hs; show s.length + 64 ≤ _; omega) ht'

theorem expected_pieces (H : Bytes → Bytes) (pieces : List Bytes) (m : Bytes) :
    expectedDigests H (pieces.map HashCall.update ++ [HashCall.digest]) m = [H (m ++ pieces.flatten)] := by
  induction pieces generalizing m with
  | nil => simp [expectedDigests]
  | cons p ps ih => simp [expectedDigests, ih]

theorem total_pieces (pieces : List Bytes) :
    totalInput (pieces.map HashCall.update ++ [HashCall.digest]) = pieces.flatten.length := by
  induction pieces with
  | nil => rfl
  | cons p ps ih => simp only [List.map_cons, List.cons_append, totalInput, ih, List.flatten_cons, List.length_append]

/-- Cutting a message into pieces in any way gives the digest of `Hash::use` on the whole message. -/
theorem C41_at_once (alg : UInt8) (halg : (Std.hashOf alg).isSome) (pieces : List Bytes)
    (hp : pieces.flatten.length + 128 ≤ 2 ^ 32) :
    ∃ d, builtinHash alg pieces.flatten = .ok d ∧
      builtinRun alg (pieces.map HashCall.update ++ [HashCall.digest]) = .ok [d] := by
  obtain ⟨H, hH⟩ := Option.isSome_iff_exists.mp halg
  refine ⟨H pieces.flatten, C49_standard alg H hH _ (by omega), ?_⟩
  rw [C41_pieces alg H hH _ ?_ (by rw [total_pieces]; omega), expected_pieces]
  · rfl
  · intro s hs
    simp only [List.mem_append, List.mem_map, HashCall.update.injEq, exists_eq_right, List.mem_singleton,
      reduceCtorEq, or_false] at hs
    have : s.length ≤ pieces.flatten.length := by
      obtain ⟨a, b, rfl⟩ := List.append_of_mem hs
      simp only [List.flatten_append, List.flatten_cons, List.length_append]; omega
    omega

/-- Two pieces and two digests. -/
example : builtinRun 2 [.update (ascii "ab"), .digest, .update (ascii "c"), .digest] =
    .ok [Std.sha1 (ascii "ab"), Std.sha1 (ascii "abc")] := by
  rw [C41_pieces 2 Std.sha1 (by simp [Std.hashOf]) _ (fun s hs => by
    simp only [List.mem_cons, HashCall.update.injEq, reduceCtorEq, List.not_mem_nil, or_false, false_or] at hs
    rcases hs with rfl | rfl <;> decide +kernel) (by decide +kernel)]
  rfl

theorem window_eq (d x y : Bytes) (bs i : Nat) (hd : d.length = 2 ^ 32) (hbs : bs ∣ 2 ^ 32) :
    ((d ++ x).drop (i * bs % 2 ^ 32)).take bs = ((d ++ y).drop (i * bs % 2 ^ 32)).take bs := by
  obtain ⟨q, hq⟩ := hbs
  have hlt : i * bs % 2 ^ 32 + bs ≤ d.length := by
    rw [hd, hq, Nat.mul_comm i bs, Nat.mul_mod_mul_left]
    have : i % q + 1 ≤ q := Nat.mod_lt _ (by
      rcases Nat.eq_zero_or_pos q with h | h
      · rw [h] at hq; simp at hq
      · exact h)
    calc bs * (i % q) + bs = bs * (i % q + 1) := by ring
      _ ≤ bs * q := Nat.mul_le_mul_left _ this
  rw [List.drop_append_of_le_length (by omega), List.drop_append_of_le_length (by omega),
    List.take_append_of_le_length (by rw [List.length_drop]; omega),
    List.take_append_of_le_length (by rw [List.length_drop]; omega)]

theorem use_large {S : Type} (alg : HashAlg S) (hbs : alg.bs = 64 ∨ alg.bs = 128) (d x y : Bytes)
    (hd : d.length = 2 ^ 32) (hx : x.length = y.length) (h128 : 128 ∣ x.length) :
    alg.use (d ++ x) = alg.use (d ++ y) := by
  have hlen : (d ++ x).length = (d ++ y).length := by simp [hx]
  have hcal : ∀ st, alg.calc (d ++ x) st = alg.calc (d ++ y) st := by
    intro st
    rw [HashAlg.calc, HashAlg.calc, hlen]
    have : ∀ n, ((d ++ x).drop (n * alg.bs % 2 ^ 32)).take alg.bs = ((d ++ y).drop (n * alg.bs % 2 ^ 32)).take alg.bs :=
      fun n => window_eq d x y alg.bs n hd (by rcases hbs with h | h <;> rw [h] <;> decide)
    simp only [this]
  have hle : toLittleEnd (d ++ x) = toLittleEnd (d ++ y) := by
    rw [toLittleEnd, toLittleEnd, hlen]
    have : ∀ n, ((d ++ x).drop (n * 4 % 2 ^ 32)).take 4 = ((d ++ y).drop (n * 4 % 2 ^ 32)).take 4 :=
      fun n => window_eq d x y 4 n hd (by decide)
    simp only [this]
  have hsize : (d ++ y).length / alg.bs * alg.bs = (d ++ y).length := by
    apply Nat.div_mul_cancel
    rw [List.length_append, hd, ← hx]
    apply Nat.dvd_add
    · rcases hbs with h | h <;> rw [h] <;> decide
    · exact Dvd.dvd.trans (by rcases hbs with h | h <;> rw [h] <;> decide) h128
  have hup : alg.update alg.fresh (d ++ x) = alg.update alg.fresh (d ++ y) := by
    simp only [HashAlg.update, HashAlg.fresh, List.nil_append, hlen, hsize, Nat.sub_self, if_true]
    rw [List.take_of_length_le (le_of_eq hlen), List.take_of_length_le le_rfl]
    simp only [HashAlg.convert]
    cases alg.little
    · simp only [Bool.false_eq_true, if_false, Out.ok_bind, hcal]
    · simp only [if_true, hle]
  rw [HashAlg.use, HashAlg.use, hup]

/-- A single `update` with more than 4 GiB goes wrong: the block index, a 32-bit `n << 6`, wraps and the octets
beyond 4 GiB are never looked at.  Any two inputs that agree in the first 2^32 octets and are of equal length, a
multiple of 128, get the same digest. -/
theorem C41_large_update_fails (alg : UInt8) (d x y : Bytes) (hd : d.length = 2 ^ 32) (hx : x.length = y.length)
    (h128 : 128 ∣ x.length) : builtinHash alg (d ++ x) = builtinHash alg (d ++ y) := by
  rw [builtinHash, builtinHash]
  split_ifs
  · exact use_large md5 (.inl rfl) d x y hd hx h128
  · exact use_large sha1 (.inl rfl) d x y hd hx h128
  · exact use_large ripemd160 (.inl rfl) d x y hd hx h128
  · exact use_large sha256 (.inl rfl) d x y hd hx h128
  · exact use_large sha384 (.inr rfl) d x y hd hx h128
  · exact use_large sha512 (.inr rfl) d x y hd hx h128
  · exact use_large sha224 (.inl rfl) d x y hd hx h128
  · rfl

/-- Such inputs exist: one block more than 4 GiB. -/
example : (List.replicate (2 ^ 32) (0 : UInt8)).length = 2 ^ 32 ∧
    (List.replicate 128 (0 : UInt8)).length = (List.replicate 128 (1 : UInt8)).length ∧
    128 ∣ (List.replicate 128 (0 : UInt8)).length :=
  ⟨List.length_replicate, by rw [List.length_replicate, List.length_replicate], by rw [List.length_replicate]⟩

theorem use_huge {S : Type} (alg : HashAlg S) (hbs : alg.bs = 64 ∨ alg.bs = 128) (m : Bytes) (hm : 2 ^ 39 ≤ m.length) :
    alg.use m = .diverge := by
  have h1 : 2 ^ 32 ≤ m.length / alg.bs := by rcases hbs with h | h <;> rw [h] <;> omega
  have hle : m.length / alg.bs * alg.bs ≤ m.length := Nat.div_mul_le_self _ _
  have hlen : (m.take (m.length / alg.bs * alg.bs)).length = m.length / alg.bs * alg.bs := by
    rw [List.length_take]; omega
  have hb0 : 0 < alg.bs := by omega
  have h2 : 2 ^ 32 ≤ (m.take (m.length / alg.bs * alg.bs)).length / alg.bs := by
    rw [hlen, Nat.mul_div_cancel _ hb0]; exact h1
  have hup : alg.update alg.fresh m = .diverge := by
    simp only [HashAlg.update, HashAlg.fresh, List.nil_append, HashAlg.convert]
    cases alg.little
    · simp only [Bool.false_eq_true, if_false, Out.ok_bind]
      rw [HashAlg.calc, if_pos h2, Out.diverge_bind]
    · have h3 : 2 ^ 32 ≤ (m.take (m.length / alg.bs * alg.bs)).length / 4 :=
        le_trans h2 (Nat.div_le_div_left (by omega) (by norm_num))
      simp only [if_true]
      rw [toLittleEnd, if_pos h3, Out.diverge_bind]
  rw [HashAlg.use, hup, Out.diverge_bind]

/-- From 2^39 octets in one `update` on the conversion or block loop never ends. -/
theorem C41_huge_update_diverges (alg : UInt8) (halg : (Std.hashOf alg).isSome) (m : Bytes) (hm : 2 ^ 39 ≤ m.length) :
    builtinHash alg m = .diverge := by
  rw [Std.hashOf] at halg
  rw [builtinHash]
  split_ifs at halg ⊢
  · exact use_huge md5 (.inl rfl) m hm
  · exact use_huge sha1 (.inl rfl) m hm
  · exact use_huge ripemd160 (.inl rfl) m hm
  · exact use_huge sha256 (.inl rfl) m hm
  · exact use_huge sha384 (.inr rfl) m hm
  · exact use_huge sha512 (.inr rfl) m hm
  · exact use_huge sha224 (.inl rfl) m hm
  · simp at halg

end OpenPGP
