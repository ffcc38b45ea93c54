import Verif.Spec.OpenSsl
import Verif.Spec.HashHistory
import Verif.Props.C49
import Verif.Props.C68

/-!
# C76: the builds with OpenSSL
-/
namespace OpenPGP

/-! ## Random octets -/

theorem seed_calls (s : SslState) (b : Bytes) : (s.seed b).calls = s.calls := by
  rw [SslState.seed]; split <;> rfl

theorem seed_seeded (s : SslState) (b : Bytes) : (s.seed b).seeded = true := by
  rw [SslState.seed]
  split
  · rfl
  · rename_i h; simpa using h

theorem seed_of_seeded {s : SslState} (h : s.seeded = true) (b : Bytes) : s.seed b = s := by
  rw [SslState.seed, h]; rfl

theorem sslLoop_spec (lib : SslRand) (n : Nat) : ∀ (k : Nat) (s : SslState),
    ((∀ i < k, lib.call s.seeds (s.calls + i) n = none) ∧ sslLoop lib n k s = (none, { s with calls := s.calls + k })) ∨
    ∃ i b, i < k ∧ (∀ j < i, lib.call s.seeds (s.calls + j) n = none) ∧ lib.call s.seeds (s.calls + i) n = some b ∧
      sslLoop lib n k s = (some b, { s with calls := s.calls + i + 1 }) := by
  intro k
  induction k with
  | zero => intro s; exact Or.inl ⟨by simp, rfl⟩
  | succ k ih =>
    intro s
    rw [sslLoop]
    cases h : lib.call s.seeds s.calls n with
    | some b => exact Or.inr ⟨0, b, by omega, by simp, h, rfl⟩
    | none =>
      have shift : ∀ j, s.calls + 1 + j = s.calls + (j + 1) := fun j => by omega
      rcases ih { s with calls := s.calls + 1 } with ⟨h1, h2⟩ | ⟨i, b, hi, h1, h2, h3⟩
      · refine Or.inl ⟨?_, ?_⟩
        · rintro (_ | i) hi
          · exact h
          · rw [← shift]; exact h1 i (by omega)
        · rw [h2]; simp only [Prod.mk.injEq, true_and, SslState.mk.injEq]; omega
      · refine Or.inr ⟨i + 1, b, by omega, ?_, by rw [← shift]; exact h2, ?_⟩
        · rintro (_ | j) hj
          · exact h
          · rw [← shift]; exact h1 j (by omega)
        · rw [h3]; simp only [Prod.mk.injEq, true_and, SslState.mk.injEq]; omega

/-- **Octets.** `rand_bytes(n, max)` returns the `n` octets of the first of the next `max` calls of OpenSSL's generator that succeeds, and throws if they all fail; later
calls go on behind those made. -/
theorem C76_octets (lib : SslRand) (hl : lib.Documented) (s : SslState) (hs : s.seeded = true) (junk : Bytes) (n max : Nat) :
    ((∀ i < max, lib.call s.seeds (s.calls + i) n = none) ∧ sslRandBytes lib s junk n max = (.throw, { s with calls := s.calls + max })) ∨
    ∃ i b, i < max ∧ (∀ j < i, lib.call s.seeds (s.calls + j) n = none) ∧ lib.call s.seeds (s.calls + i) n = some b ∧ b.length = n ∧
      sslRandBytes lib s junk n max = (.ok b, { s with calls := s.calls + i + 1 }) := by
  rw [sslRandBytes, SslState.construct, seed_of_seeded hs]
  rcases sslLoop_spec lib n max s with ⟨h1, h2⟩ | ⟨i, b, hi, h1, h2, h3⟩
  · exact Or.inl ⟨h1, by rw [h2]⟩
  · exact Or.inr ⟨i, b, hi, h1, h2, hl _ _ _ _ h2, by rw [h3]⟩

theorem bits_enough (n : Nat) : n ≤ 8 * ((n >>> 3) + (if n &&& 0xff ≠ 0 then 1 else 0)) := by
  have h1 : n >>> 3 = n / 8 := by rw [Nat.shiftRight_eq_div_pow]
  have h2 : n &&& 0xff = n % 256 := Nat.and_two_pow_sub_one_eq_mod n 8
  rw [h1, h2]
  split <;> omega

theorem binify_testBit (b : Bytes) :
    binify b = b.flatMap (fun c => (List.range 8).map fun i => if c.toNat.testBit (7 - i) then (49 : UInt8) else 48) := by
  have h : ∀ c : UInt8, binifyChar c 8 = (List.range 8).map fun i => if c.toNat.testBit (7 - i) then (49 : UInt8) else 48 :=
    fun c => octet_all (P := fun c : UInt8 => binifyChar c 8 = (List.range 8).map fun i => if c.toNat.testBit (7 - i) then (49 : UInt8) else 48) (by decide +kernel) c
  rw [binify]
  simp only [Nat.not_lt_zero, if_false]
  rw [funext h]

theorem binify_len (b : Bytes) : (binify b).length = 8 * b.length := by
  rw [binify_testBit]
  induction b with
  | nil => rfl
  | cons c b ih => rw [List.flatMap_cons, List.length_append, ih]; simp; omega

/-- **Bits.** `rand_bits(n, max)` returns exactly `n` characters, the first bits of the octets of one successful call, or throws after `max` failures. -/
theorem C76_bits (lib : SslRand) (hl : lib.Documented) (s : SslState) (hs : s.seeded = true) (junk junk' : Bytes) (n max : Nat) :
    ∃ size, n ≤ 8 * size ∧ size ≤ n / 8 + 1 ∧
    (((∀ i < max, lib.call s.seeds (s.calls + i) size = none) ∧ sslRandBits lib s junk n max = (.throw, { s with calls := s.calls + max })) ∨
    ∃ i b r, i < max ∧ (∀ j < i, lib.call s.seeds (s.calls + j) size = none) ∧ lib.call s.seeds (s.calls + i) size = some b ∧
      (SslCall.bits n junk junk').MadeFrom b r ∧ sslRandBits lib s junk n max = (.ok r, { s with calls := s.calls + i + 1 })) := by
  refine ⟨_, bits_enough n, ?_, ?_⟩
  · rw [Nat.shiftRight_eq_div_pow]; split <;> omega
  rw [sslRandBits]
  rcases C76_octets lib hl s hs junk ((n >>> 3) + (if n &&& 0xff ≠ 0 then 1 else 0)) max with ⟨h1, h2⟩ | ⟨i, b, hi, h1, h2, h3, h4⟩
  · exact Or.inl ⟨h1, by rw [h2]⟩
  · refine Or.inr ⟨i, b, (binify b).take n, hi, h1, h2, ⟨?_, (binify b).drop n, ?_⟩, by rw [h4]⟩
    · rw [List.length_take, binify_len, h3]
      exact Nat.min_eq_left (bits_enough n)
    · rw [← binify_testBit, List.take_append_drop]

/-- The uses that return something. -/
def SslCall.asks : SslCall → Bool
  | .seeded _ => false
  | _ => true

theorem SslCall.run_spec (lib : SslRand) (hl : lib.Documented) (s : SslState) (c : SslCall) :
    (c.run lib s).2.seeded = true ∧ s.calls ≤ (c.run lib s).2.calls ∧
    ∀ r, (c.run lib s).1 = some (.ok r) → ∃ i b size, s.calls ≤ i ∧ i < (c.run lib s).2.calls ∧
      lib.call (c.run lib s).2.seeds i size = some b ∧ c.MadeFrom b r := by
  cases c with
  | seeded seed => exact ⟨seed_seeded _ _, by simp [SslCall.run, seed_calls], by simp [SslCall.run]⟩
  | octets n junk junk' =>
    have hs := seed_seeded s junk
    have hc := seed_calls s junk
    simp only [SslCall.run, SslState.construct]
    rcases C76_octets lib hl (s.seed junk) hs junk' n 5 with ⟨h1, h2⟩ | ⟨i, b, hi, h1, h2, h3, h4⟩
    · rw [h2]; exact ⟨hs, by simp [hc], by simp⟩
    · rw [h4]
      refine ⟨hs, by simp [hc]; omega, fun r hr => ?_⟩
      simp only [Option.some.injEq, Out.ok.injEq] at hr
      subst hr
      exact ⟨_, b, n, by omega, by simp, h2, h3, rfl⟩
  | bits n junk junk' =>
    have hs := seed_seeded s junk
    have hc := seed_calls s junk
    simp only [SslCall.run, SslState.construct]
    obtain ⟨size, -, -, ⟨h1, h2⟩ | ⟨i, b, r, hi, h1, h2, h3, h4⟩⟩ := C76_bits lib hl (s.seed junk) hs junk' junk' n 5
    · rw [h2]; exact ⟨hs, by simp [hc], by simp⟩
    · rw [h4]
      refine ⟨hs, by simp [hc]; omega, fun r' hr => ?_⟩
      simp only [Option.some.injEq, Out.ok.injEq] at hr
      subst hr
      exact ⟨_, b, size, by omega, by simp, h2, h3⟩

theorem run_seeds (lib : SslRand) (hl : lib.Documented) (s : SslState) (hs : s.seeded = true) (c : SslCall) : (c.run lib s).2.seeds = s.seeds := by
  cases c with
  | seeded seed => simp [SslCall.run, seed_of_seeded hs]
  | octets n junk junk' =>
    simp only [SslCall.run, SslState.construct, seed_of_seeded hs]
    rcases C76_octets lib hl s hs junk' n 5 with ⟨-, h2⟩ | ⟨i, b, -, -, -, -, h4⟩
    · rw [h2]
    · rw [h4]
  | bits n junk junk' =>
    simp only [SslCall.run, SslState.construct, seed_of_seeded hs]
    obtain ⟨size, -, -, ⟨-, h2⟩ | ⟨i, b, r, -, -, -, -, h4⟩⟩ := C76_bits lib hl s hs junk' junk' n 5
    · rw [h2]
    · rw [h4]

theorem runSsl_seeds (lib : SslRand) (hl : lib.Documented) (cs : List SslCall) : ∀ s : SslState, s.seeded = true → (runSsl lib s cs).2.seeds = s.seeds := by
  induction cs with
  | nil => intro s _; rfl
  | cons c cs ih =>
    intro s hs
    rw [runSsl]
    exact (ih _ (c.run_spec lib hl s).1).trans (run_seeds lib hl s hs c)

/-- **Histories.** Whatever a process asks for, in whatever order, every answer comes from a call of its own: the numbers of the calls behind the answers grow strictly. -/
theorem C76_history (lib : SslRand) (hl : lib.Documented) : ∀ (cs : List SslCall) (s : SslState), ∃ src : List (Nat × Bytes),
    src.Pairwise (fun x y => x.1 < y.1) ∧ (∀ x ∈ src, s.calls ≤ x.1 ∧ ∃ size, lib.call (runSsl lib s cs).2.seeds x.1 size = some x.2) ∧
    List.Forall₂ (fun (x : Nat × Bytes) (y : SslCall × Bytes) => y.1.MadeFrom x.2 y.2) src
      ((cs.zip (runSsl lib s cs).1).filterMap fun y => match y.2 with | some (.ok r) => some (y.1, r) | _ => none) := by
  intro cs
  induction cs with
  | nil => intro s; exact ⟨[], by simp, by simp, by simp [runSsl]⟩
  | cons c cs ih =>
    intro s
    obtain ⟨h1, h2, h3⟩ := c.run_spec lib hl s
    obtain ⟨src, i1, i2, i3⟩ := ih (c.run lib s).2
    have hseeds := runSsl_seeds lib hl cs _ h1
    rw [runSsl]
    dsimp only
    rw [List.zip_cons_cons, List.filterMap_cons]
    have skip : ∃ src : List (Nat × Bytes), src.Pairwise (fun x y => x.1 < y.1) ∧
        (∀ x ∈ src, s.calls ≤ x.1 ∧ ∃ size, lib.call (runSsl lib (c.run lib s).2 cs).2.seeds x.1 size = some x.2) ∧
        List.Forall₂ (fun (x : Nat × Bytes) (y : SslCall × Bytes) => y.1.MadeFrom x.2 y.2) src
          ((cs.zip (runSsl lib (c.run lib s).2 cs).1).filterMap fun y => match y.2 with | some (.ok r) => some (y.1, r) | _ => none) :=
      ⟨src, i1, fun x hx => ⟨h2.trans (i2 x hx).1, (i2 x hx).2⟩, i3⟩
    rcases hr : (c.run lib s).1 with - | (r | - | - | -)
    · exact skip
    · obtain ⟨i, b, size, ha, hb, hc, hd⟩ := h3 r hr
      refine ⟨(i, b) :: src, ?_, ?_, ?_⟩
      · rw [List.pairwise_cons]
        exact ⟨fun x hx => lt_of_lt_of_le hb (i2 x hx).1, i1⟩
      · intro x hx
        rcases List.mem_cons.mp hx with rfl | hx
        · exact ⟨ha, size, by rw [hseeds]; exact hc⟩
        · exact ⟨h2.trans (i2 x hx).1, (i2 x hx).2⟩
      · exact List.Forall₂.cons hd i3
    all_goals exact skip

/-- **Seeds.** A seed is handed on if it is the first thing a process does with the generator. -/
theorem C76_seed (lib : SslRand) (hl : lib.Documented) (seed : Bytes) (cs : List SslCall) :
    (runSsl lib .start (.seeded seed :: cs)).2.seeds = [seed] := by
  rw [runSsl]
  exact runSsl_seeds lib hl cs _ (seed_seeded _ _)

/-- Every other seed is thrown away: after any request, what OpenSSL has been seeded with is the contents of uninitialised memory, whatever seeds are given later. -/
theorem C76_seed_fails (lib : SslRand) (hl : lib.Documented) (n : Nat) (junk junk' : Bytes) (cs : List SslCall) :
    (runSsl lib .start (.octets n junk junk' :: cs)).2.seeds = [junk] ∧ (runSsl lib .start (.bits n junk junk' :: cs)).2.seeds = [junk] := by
  have key : ∀ c : SslCall, (c = .octets n junk junk' ∨ c = .bits n junk junk') → (c.run lib .start).2.seeds = [junk] := by
    intro c hc
    have h0 : (SslState.start.construct junk).seeded = true := seed_seeded _ _
    have h1 : (SslState.start.construct junk).seeds = [junk] := rfl
    rcases hc with rfl | rfl
    · have := run_seeds lib hl _ h0 (.octets n junk junk')
      rw [h1] at this
      rw [← this]
      simp only [SslCall.run, SslState.construct, seed_of_seeded (seed_seeded _ _)]
    · have := run_seeds lib hl _ h0 (.bits n junk junk')
      rw [h1] at this
      rw [← this]
      simp only [SslCall.run, SslState.construct, seed_of_seeded (seed_seeded _ _)]
  constructor
  · rw [runSsl]
    exact (runSsl_seeds lib hl cs _ (SslCall.run_spec lib hl _ _).1).trans (key _ (Or.inl rfl))
  · rw [runSsl]
    exact (runSsl_seeds lib hl cs _ (SslCall.run_spec lib hl _ _).1).trans (key _ (Or.inr rfl))

/-- A generator that fails at every other call. -/
def demoRand : SslRand := ⟨fun _ i n => if i % 2 = 0 then none else some (List.replicate n (UInt8.ofNat i))⟩

example : demoRand.Documented ∧
    (runSsl demoRand .start [.octets 3 [7] [8], .seeded [1], .bits 11 [9] [9], .bits 256 [] []]).1 =
      [some (.ok [1, 1, 1]), none, some (.ok (ascii "00000011000")), some (.ok ((List.replicate 32 (ascii "00000101")).flatten))] ∧
    sslRandBytes demoRand ⟨true, [], 0⟩ [] 4 1 = (.throw, ⟨true, [], 1⟩) := by
  refine ⟨?_, by decide +kernel, by decide +kernel⟩
  intro seeds i n b h
  simp only [demoRand] at h
  split at h
  · cases h
  · obtain rfl := Option.some.inj h; simp

/-! ## Hashes -/

theorem unhexlify_hexlify_any (s : Bytes) : unhexlify (hexlify s) = .ok s := by
  induction s with
  | nil => rfl
  | cons c s ih =>
    have hc : unhexlify (hexlifyChar c false) = .ok [c] := by
      rw [hexlifyChar, unhexlify_makehex _ 1]
      have := c.toNat_lt
      simp [be]
    have := unhexlify_append hc ih
    rw [hexlify, List.flatMap_cons]
    exact this

theorem sslClass_cases {alg : UInt8} {c : SslClass} (h : sslClass alg = some c) :
    ∃ f, c.init = f ∧ c.update = f ∧ c.final = f ∧ Std.hashOf alg = some f.standard ∧ hashLen alg = some c.length ∧ c.digestsize = 8 * c.length := by
  rw [sslClass] at h
  rw [Std.hashOf, hashLen]
  split_ifs at h ⊢ <;> obtain rfl := Option.some.inj h <;> exact ⟨_, rfl, rfl, rfl, rfl, rfl, rfl⟩

theorem ssl_updates {C : Type} (c : SslClass) (lib : SslHashes C) (cs : List HashCall) : ∀ (us : List Bytes) (ctx : C),
    c.run lib (us.map HashCall.update ++ cs) ctx = c.run lib cs (us.foldl (lib.update c.update) ctx) := by
  intro us
  induction us with
  | nil => intro ctx; rfl
  | cons u us ih => intro ctx; rw [List.map_cons, List.cons_append, SslClass.run, ih]; rfl

/-- The first digest, and what the object then is. -/
theorem ssl_first {C : Type} {lib : SslHashes C} {erased : C} (hd : lib.Documented erased) {alg : UInt8} {c : SslClass} (hc : sslClass alg = some c)
    {H : Bytes → Bytes} (hH : Std.hashOf alg = some H) (data : Bytes) (us : List Bytes) (cs : List HashCall) :
    sslRun lib alg data (us.map HashCall.update ++ .digest :: cs) = (do let ds ← c.run lib cs erased; return H (data ++ us.flatten) :: ds) := by
  obtain ⟨f, h1, h2, h3, h4, h5, h6⟩ := sslClass_cases hc
  obtain rfl := Option.some.inj (h4.symm.trans hH)
  have e := ssl_updates c lib (.digest :: cs) (data :: us) (lib.init c.init)
  rw [List.map_cons, List.cons_append] at e
  rw [sslRun, hc]
  dsimp only
  rw [e, SslClass.run, SslClass.hexdigest]
  dsimp only
  rw [h1, h2, h3, hd.digest f (data :: us), hd.erases, List.flatten_cons, unhexlify_hexlify_any]
  have hl : (f.standard (data ++ us.flatten)).length = c.length := (C49_digest_size alg).2 _ _ hH h5 _
  rw [← hl, List.take_length]
  rfl

/-- **Hashes.** An object made with data and given more in any number of pieces gives the standard's hash of everything: what OpenSSL is documented to do is what the
default build does (C49). -/
theorem C76_hash {C : Type} (lib : SslHashes C) (erased : C) (hd : lib.Documented erased) (alg : UInt8) (H : Bytes → Bytes) (hH : Std.hashOf alg = some H)
    (data : Bytes) (pieces : List Bytes) :
    sslRun lib alg data (pieces.map HashCall.update ++ [.digest]) = .ok [H (data ++ pieces.flatten)] ∧ sslUse lib alg data = .ok (H data) := by
  have hc : ∃ c, sslClass alg = some c := by
    rw [Std.hashOf] at hH
    rw [sslClass]
    split_ifs at hH ⊢ <;> exact ⟨_, rfl⟩
  obtain ⟨c, hc⟩ := hc
  have first := ssl_first hd hc hH
  refine ⟨first data pieces [], ?_⟩
  have h0 := first data [] []
  simp only [List.map_nil, List.nil_append, List.flatten_nil, List.append_nil] at h0
  rw [sslUse, h0]
  rfl

/-- The two builds agree on every message the default one is shown right for. -/
theorem C76_same_hash {C : Type} (lib : SslHashes C) (erased : C) (hd : lib.Documented erased) (alg : UInt8) (data : Bytes) (hl : data.length < 2 ^ 32) :
    sslUse lib alg data = builtinHash alg data := by
  cases hH : Std.hashOf alg with
  | none =>
    rw [C49_unknown_throws alg hH]
    have : sslClass alg = none := by
      rw [Std.hashOf] at hH
      rw [sslClass]
      split_ifs at hH ⊢
      rfl
    rw [sslUse, sslRun, this]
    rfl
  | some H => rw [(C76_hash lib erased hd alg H hH data []).2, C49_standard alg H hH data hl]

/-- The sizes in bits that the classes report for digests are those of the standards. -/
theorem C76_sizes (alg : UInt8) (c : SslClass) (hc : sslClass alg = some c) : hashLen alg = some (c.digestsize / 8) ∧ c.digestsize % 8 = 0 := by
  obtain ⟨f, -, -, -, -, h5, h6⟩ := sslClass_cases hc
  rw [h6, h5]
  exact ⟨by congr 1; omega, by omega⟩

/-- The block sizes are right for all classes but SHA256, which says 256 bits. -/
theorem C76_blocksize (alg : UInt8) (c : SslClass) (hc : sslClass alg = some c) (h8 : alg ≠ 8) : standardBlock alg = some c.blocksize := by
  rw [sslClass] at hc
  split_ifs at hc with h1 h2 h3 h4 h5 h6 <;> obtain rfl := Option.some.inj hc
  · rw [h1]; rfl
  · rw [h2]; rfl
  · rw [h3]; rfl
  · rw [h4]; rfl
  · rw [h5]; rfl
  · rw [h6]; rfl

theorem C76_blocksize_fails : ∃ c, sslClass 8 = some c ∧ standardBlock 8 = some 512 ∧ c.blocksize = 256 := ⟨_, rfl, rfl, rfl⟩

/-- A second `digest()` of an object says nothing about the data: it is the same octets `d` for all data. (In the default build it is the first one again: C41.) -/
theorem C76_again_fails {C : Type} (lib : SslHashes C) (erased : C) (hd : lib.Documented erased) (alg : UInt8) (H : Bytes → Bytes)
    (hH : Std.hashOf alg = some H) : ∃ d, ∀ data, sslRun lib alg data [.digest, .digest] = .ok [H data, d] := by
  have hc : ∃ c, sslClass alg = some c := by
    rw [Std.hashOf] at hH
    rw [sslClass]
    split_ifs at hH ⊢ <;> exact ⟨_, rfl⟩
  obtain ⟨c, hc⟩ := hc
  refine ⟨(lib.final c.final erased).1.take c.length, fun data => ?_⟩
  have := ssl_first hd hc hH data [] [.digest]
  simp only [List.map_nil, List.nil_append, List.flatten_nil, List.append_nil] at this
  rw [this, SslClass.run, SslClass.hexdigest]
  dsimp only
  rw [unhexlify_hexlify_any]
  rfl

/-- The documented behaviour is possible: contexts that keep the message, and nothing once they are erased. -/
noncomputable def demoHashes : SslHashes (Option Bytes) where
  init _ := some []
  update _ c m := c.map (· ++ m)
  final f c := match c with
    | some m => (f.standard m, none)
    | none => ([], none)

theorem demoHashes_ok : demoHashes.Documented none where
  digest f chunks := by
    have : ∀ (l : List Bytes) (m : Bytes), l.foldl (demoHashes.update f) (some m) = some (m ++ l.flatten) := by
      intro l
      induction l with
      | nil => simp
      | cons x l ih => intro m; rw [List.foldl_cons]; show l.foldl _ (some (m ++ x)) = _; rw [ih]; simp
    show (demoHashes.final f (chunks.foldl (demoHashes.update f) (some []))).1 = _
    rw [this, List.nil_append]
    rfl
  erases f c := by cases c <;> rfl

example : sslUse demoHashes 8 (ascii "abc") = .ok (Std.sha256 (ascii "abc")) := (C76_hash demoHashes none demoHashes_ok 8 _ rfl _ []).2

end OpenPGP
