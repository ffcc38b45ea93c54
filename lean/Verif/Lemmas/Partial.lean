import Verif.Lemmas.Framing
import Verif.Spec.Framing

namespace OpenPGP
open Spec

theorem chunkOctet (k : Nat) (hk : k < 31) :
    (224 ≤ UInt8.ofNat (224 + k)) ∧ (UInt8.ofNat (224 + k) ≤ 254) ∧ UInt8.ofNat (224 + k) ≠ 255 ∧
    (UInt8.ofNat (224 + k) &&& 0x1f).toNat = k := by
  have : ∀ k : Fin 31, (224 ≤ UInt8.ofNat (224 + k.val)) ∧ (UInt8.ofNat (224 + k.val) ≤ 254) ∧
    UInt8.ofNat (224 + k.val) ≠ 255 ∧ (UInt8.ofNat (224 + k.val) &&& 0x1f).toNat = k.val := by decide
  exact this ⟨k, hk⟩

theorem rfcChunks_cons (k : Nat) (c : Bytes) (cs : List (Nat × Bytes)) :
    rfcChunks ((k, c) :: cs) = UInt8.ofNat (224 + k) :: (c ++ rfcChunks cs) := by
  simp [rfcChunks]

/-- The loop swallows all chunks up to an octet that does not announce one. -/
theorem partialLoop_at (chunks : List (Nat × Bytes)) (hc : chunksOk chunks) (data : Bytes) (c : UInt8)
    (rest : Bytes) (hn : ¬ (224 ≤ c ∧ c ≤ 254)) (pos fuel : Nat) (acc : Bytes)
    (hd : data.drop pos = rfcChunks chunks ++ c :: rest) (hf : chunks.length < fuel) :
    partialLoop data fuel pos acc
      = .ok (acc ++ chunks.flatMap (fun kc => kc.2), pos + (rfcChunks chunks).length) := by
  induction chunks generalizing pos fuel acc with
  | nil =>
    cases fuel with
    | zero => simp at hf
    | succ fuel =>
      have hd' : data.drop pos = c :: rest := by simpa [rfcChunks] using hd
      simp [partialLoop, charAt_drop hd', rfcChunks]
      intro h1 h2; exact absurd ⟨h1, h2⟩ hn
  | cons kc chunks ih =>
    obtain ⟨k, ch⟩ := kc
    cases fuel with
    | zero => simp at hf
    | succ fuel =>
      obtain ⟨hk, hl⟩ := hc (k, ch) (by simp)
      simp only at hk hl
      obtain ⟨o1, o2, _, o4⟩ := chunkOctet k hk
      rw [rfcChunks_cons] at hd
      simp only [List.cons_append, List.append_assoc] at hd
      have hd1 := drop_succ_of hd
      have hd2 := drop_add_of hd1
      rw [partialLoop]
      simp only [charAt_drop hd, Out.ok_bind, o1, o2, and_self, if_true, o4]
      rw [substr_drop (n := 2 ^ k) (le_of_drop_cons hd) hd1 hl, Out.ok_bind]
      rw [hl] at hd2
      rw [ih (fun kc h => hc kc (by simp [h])) (pos + 1 + 2 ^ k) fuel (acc ++ ch) hd2 (by simpa using hf)]
      simp [rfcChunks_cons, hl]; omega

theorem chunks_length_le (chunks : List (Nat × Bytes)) : chunks.length ≤ (rfcChunks chunks).length := by
  induction chunks with
  | nil => simp
  | cons kc cs ih => obtain ⟨k, c⟩ := kc; rw [rfcChunks_cons]; simp; omega

theorem rfcNewLength_eq (n : Nat) : rfcNewLength n = newLengthOctets n 0 := by
  unfold newLengthOctets rfcNewLength
  have h0 : newOctets n 0 = 0 := rfl
  simp only [h0, true_and, Nat.zero_ne_one, false_or, show ¬ (0 : Nat) = 2 by omega,
    show ¬ (0 : Nat) = 5 by omega]
  by_cases h1 : n ≤ 191
  · rw [if_pos h1, if_pos (show n < 192 by omega)]
  · rw [if_neg h1, if_neg (show ¬ n < 192 by omega)]
    by_cases h2 : n ≤ 8383
    · rw [if_pos (show 192 ≤ n ∧ n ≤ 8383 by omega), if_pos (show n < 8384 by omega)]
      have : subSz n 0xc0 = n - 192 := by unfold subSz; rw [if_pos (by omega)]
      have e : UInt8.ofNat ((n - 192) % 256) = UInt8.ofNat (n - 192) := by
        apply UInt8.toNat_inj.mp
        simp
      rw [this, e]
    · rw [if_neg (show ¬ (192 ≤ n ∧ n ≤ 8383) by omega),
        if_neg (show ¬ n < 8384 by omega), if_pos (show n > 8383 by omega)]

theorem ctb_new (tag : Nat) (ht : tag < 64) : UInt8.ofNat (0xc0 ||| tag) = UInt8.ofNat (192 + tag) := by
  have : ∀ t : Fin 64, UInt8.ofNat (0xc0 ||| t.val) = UInt8.ofNat (192 + t.val) := by decide
  exact this ⟨tag, ht⟩

/-- Reading a first chunk, further chunks and whatever definite header follows (`fin` is the reading of the
last piece). -/
theorem readUnformatted_partial (ctb : UInt8) (chunks : List (Nat × Bytes)) (hne : chunks ≠ [])
    (hc : chunksOk chunks) (data : Bytes) (pos : Nat) (c : UInt8) (rest : Bytes)
    (hn : ¬ (224 ≤ c ∧ c ≤ 254)) (hd : data.drop pos = rfcChunks chunks ++ c :: rest)
    (fs fl fp : Nat) (hfin : newDefinite data (pos + (rfcChunks chunks).length) c = .ok (fs, fl, fp))
    (last : Bytes) (hlast : substr data fs fl = .ok last) :
    readUnformatted .new ctb data pos
      = .ok (⟨chunks.flatMap (fun kc => kc.2) ++ last, 0,
          (chunks.flatMap (fun kc => kc.2) ++ last).length, true⟩, fp + fl) := by
  cases chunks with
  | nil => exact absurd rfl hne
  | cons kc chunks =>
    obtain ⟨k, ch⟩ := kc
    obtain ⟨hk, hl⟩ := hc (k, ch) (by simp)
    simp only at hk hl
    obtain ⟨o1, o2, o3, o4⟩ := chunkOctet k hk
    rw [rfcChunks_cons] at hd
    simp only [List.cons_append, List.append_assoc] at hd
    have hd1 := drop_succ_of hd
    have hd2 := drop_add_of hd1
    have hdl := le_of_drop (le_of_drop_cons hd) hd1
    simp only [readUnformatted, charAt_drop hd, Out.ok_bind]
    rw [if_pos ⟨o1, o3⟩]
    simp only [o4]
    rw [substr_drop (n := 2 ^ k) (le_of_drop_cons hd) hd1 hl, Out.ok_bind]
    rw [hl] at hd2
    have hlen : chunks.length < data.length + 1 := by
      have h1 := chunks_length_le chunks
      have h2 := congrArg List.length hd2
      rw [List.length_drop, List.length_append] at h2
      omega
    rw [partialLoop_at chunks (fun kc h => hc kc (by simp [h])) data c rest hn (pos + 1 + 2 ^ k) (data.length + 1) ch hd2 hlen]
    have hp : pos + 1 + 2 ^ k + (rfcChunks chunks).length = pos + (rfcChunks ((k, ch) :: chunks)).length := by
      rw [rfcChunks_cons]; simp [hl]; omega
    have hd3 := drop_add_of hd2
    simp only [Out.ok_bind]
    rw [charAt_drop hd3, Out.ok_bind, hp, hfin, Out.ok_bind]
    simp only
    rw [hlast, Out.ok_bind]
    simp

/-! ## The writer's chunks -/

theorem setBits_aux (n m : Nat) :
    (((List.range m).map (· + 9)).reverse.filter (fun i => n.testBit i) |>.map (2 ^ ·)).sum + n % 512
      = n % 2 ^ (9 + m) := by
  induction m with
  | zero => simp
  | succ m ih =>
    rw [List.range_succ, List.map_append, List.reverse_append, List.map_singleton, List.reverse_singleton,
      List.singleton_append, List.filter_cons]
    have hstep : n % 2 ^ (9 + (m + 1)) = n % 2 ^ (9 + m) + 2 ^ (9 + m) * (n.testBit (9 + m)).toNat := by
      rw [show 9 + (m + 1) = (9 + m) + 1 by omega, Nat.mod_pow_succ, Nat.toNat_testBit]
    rw [hstep, ← ih, show m + 9 = 9 + m by omega]
    by_cases hb : n.testBit (9 + m) = true
    · simp only [hb, if_true, List.map_cons, List.sum_cons, Bool.toNat_true]; omega
    · simp only [hb, Bool.false_eq_true, if_false]
      simp only [Bool.not_eq_true] at hb
      simp

theorem setBits_sum (n : Nat) (h : n < 2 ^ 31) : ((setBits n).map (2 ^ ·)).sum + n % 512 = n := by
  have := setBits_aux n 22
  rw [setBits, this, Nat.mod_eq_of_lt h]

theorem setBits_range (n b : Nat) (h : b ∈ setBits n) : 9 ≤ b ∧ b < 31 := by
  simp only [setBits, List.mem_filter, List.mem_reverse, List.mem_map, List.mem_range] at h
  obtain ⟨⟨a, ha, rfl⟩, _⟩ := h
  omega

theorem setBits_ne_nil (n : Nat) (h : n < 2 ^ 31) (h2 : 512 ≤ n) : setBits n ≠ [] := by
  intro hc
  have := setBits_sum n h
  rw [hc] at this
  simp at this
  omega

/-- The chunks the writer makes. -/
def mkChunks : List Nat → Bytes → List (Nat × Bytes)
  | [], _ => []
  | b :: bs, data => (b, data.take (2 ^ b)) :: mkChunks bs (data.drop (2 ^ b))

theorem orE0 (b : Nat) (h : b < 31) : UInt8.ofNat (b ||| 0xe0) = UInt8.ofNat (224 + b) := by
  have : ∀ b : Fin 31, UInt8.ofNat (b.val ||| 0xe0) = UInt8.ofNat (224 + b.val) := by decide
  exact this ⟨b, h⟩

theorem writeChunks_eq (bits : List Nat) (data : Bytes) (hb : ∀ b ∈ bits, b < 31)
    (hs : (bits.map (2 ^ ·)).sum ≤ data.length) :
    writeChunks bits data = (rfcChunks (mkChunks bits data), data.drop ((bits.map (2 ^ ·)).sum)) ∧
    chunksOk (mkChunks bits data) ∧
    (mkChunks bits data).flatMap (fun kc => kc.2) = data.take ((bits.map (2 ^ ·)).sum) := by
  induction bits generalizing data with
  | nil => simp [writeChunks, mkChunks, rfcChunks, chunksOk]
  | cons b bs ih =>
    simp only [List.map_cons, List.sum_cons] at hs
    obtain ⟨h1, h2, h3⟩ := ih (data.drop (2 ^ b)) (fun x hx => hb x (by simp [hx])) (by simp; omega)
    refine ⟨?_, ?_, ?_⟩
    · rw [writeChunks, h1, mkChunks, rfcChunks_cons, orE0 b (hb b (by simp))]
      simp [List.drop_drop]
    · intro kc hkc
      rw [mkChunks, List.mem_cons] at hkc
      rcases hkc with rfl | hkc
      · exact ⟨hb b (by simp), by simp; omega⟩
      · exact h2 kc hkc
    · rw [mkChunks, List.flatMap_cons, h3, List.map_cons, List.sum_cons, List.take_add]

theorem mkChunks_ne_nil (bits : List Nat) (data : Bytes) (h : bits ≠ []) : mkChunks bits data ≠ [] := by
  cases bits with
  | nil => exact absurd rfl h
  | cons b bs => simp [mkChunks]

end OpenPGP
