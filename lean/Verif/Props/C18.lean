import Verif.Model.Pkcs1

/-!
# C18: PKCS#1 v1.5 encryption padding is lossless

`draws` are the octets the random generator yields. The specification of an encoded message block is RFC 4880 13.1.1:
`00 02 PS 00 M` with `PS` non-zero octets.
-/
namespace OpenPGP

/-- `EM = 00 || 02 || PS || 00 || M`, `PS` without zero octets (RFC 4880 13.1.1). -/
def IsEme (ps m em : Bytes) : Prop := em = [0, 2] ++ ps ++ [0] ++ m ∧ ∀ c ∈ ps, c ≠ 0

theorem emePad_ok {target : Nat} {draws em r : Bytes} (h : emePad target draws em = .ok r) (hl : em.length ≤ target) :
    r = em ++ (draws.filter (· ≠ 0)).take (target - em.length) ∧ r.length = target := by
  induction draws generalizing em with
  | nil =>
    rw [emePad] at h
    split at h
    · exact absurd h (by simp)
    · cases h; simp; omega
  | cons c draws ih =>
    rw [emePad] at h
    split at h
    · by_cases hc : c = 0
      · simp only [hc, ne_eq, not_true_eq_false, if_false] at h
        simpa [hc] using ih h hl
      · simp only [ne_eq, hc, not_false_eq_true, if_true] at h
        obtain ⟨h1, h2⟩ := ih h (by simp; omega)
        refine ⟨?_, h2⟩
        rw [h1, List.filter_cons_of_pos (by simpa using hc)]
        rw [show target - em.length = (target - (em ++ [c]).length) + 1 by simp; omega, List.take_succ_cons]
        simp
    · cases h
      rename_i hn
      refine ⟨?_, by omega⟩
      rw [show target - r.length = 0 by omega]
      simp

theorem emePad_total (target : Nat) (draws em : Bytes)
    (h : target ≤ em.length + (draws.filter (· ≠ 0)).length) : ∃ r, emePad target draws em = .ok r := by
  induction draws generalizing em with
  | nil => exact ⟨em, by rw [emePad, if_neg (by simp at h; omega)]⟩
  | cons c draws ih =>
    rw [emePad]
    split
    · by_cases hc : c = 0
      · simp only [hc, ne_eq, not_true_eq_false, if_false]
        exact ih em (by simpa [hc] using h)
      · simp only [ne_eq, hc, not_false_eq_true, if_true]
        refine ih _ ?_
        rw [List.filter_cons_of_pos (by simpa using hc)] at h
        simp at h ⊢; omega
    · exact ⟨_, rfl⟩

theorem emePad_short {target : Nat} {draws em : Bytes} (h : em.length + draws.length < target) :
    emePad target draws em = .diverge := by
  induction draws generalizing em with
  | nil => rw [emePad, if_pos (by simpa using h)]
  | cons c draws ih =>
    rw [List.length_cons] at h
    rw [emePad, if_pos (by omega)]
    apply ih
    split
    · simp; omega
    · omega

/-- The bound test and the loop bound for messages that fit. -/
theorem emeEncode_fits {draws m : Bytes} {k : Nat} (hk : k < 2 ^ 32) (hm : m.length + 11 ≤ k) :
    emeEncode draws m k = (emePad (k - m.length - 1) draws [0, 2] >>= fun em => .ok (em ++ 0 :: m)) := by
  have h1 : ¬ (k + 2 ^ 32 - 11) % 2 ^ 32 < m.length := by omega
  have h2 : subSz (subSz k m.length) 1 = k - m.length - 1 := by
    have : subSz k m.length = k - m.length := if_pos (by omega)
    rw [this]
    exact if_pos (by omega)
  rw [emeEncode, if_neg h1, h2]
  rfl

/-- The encoding of a message of at most `k - 11` octets is `00 02 PS 00 M`, exactly `k` octets long, where `PS` are the
first `k - |M| - 3` (at least eight) non-zero octets drawn. -/
theorem C18_encode {draws m em : Bytes} {k : Nat} (hk : k < 2 ^ 32) (hm : m.length + 11 ≤ k)
    (h : emeEncode draws m k = .ok em) :
    IsEme ((draws.filter (· ≠ 0)).take (k - m.length - 3)) m em ∧ em.length = k ∧
    ((draws.filter (· ≠ 0)).take (k - m.length - 3)).length = k - m.length - 3 := by
  rw [emeEncode_fits hk hm] at h
  obtain ⟨r, hr, h⟩ := Out.bind_eq_ok.mp h
  cases h
  obtain ⟨h1, h2⟩ := emePad_ok hr (by simp; omega)
  have e : k - m.length - 1 - [(0 : UInt8), 2].length = k - m.length - 3 := by simp; omega
  rw [e] at h1
  refine ⟨⟨by rw [h1]; simp, ?_⟩, by simp [h2]; omega, ?_⟩
  · intro c hc
    simpa using (List.mem_filter.mp (List.mem_of_mem_take hc)).2
  · have := congrArg List.length h1
    rw [h2] at this
    simp only [List.length_append, List.length_cons, List.length_nil] at this ⊢
    omega

/-- Encoding returns as soon as enough non-zero octets have been drawn. -/
theorem C18_encode_returns (draws m : Bytes) (k : Nat) (hk : k < 2 ^ 32) (hm : m.length + 11 ≤ k)
    (hd : k - m.length - 3 ≤ (draws.filter (· ≠ 0)).length) : ∃ em, emeEncode draws m k = .ok em := by
  obtain ⟨r, hr⟩ := emePad_total (k - m.length - 1) draws [0, 2] (by
    have : [(0 : UInt8), 2].length = 2 := rfl
    omega)
  exact ⟨_, by rw [emeEncode_fits hk hm, hr]; rfl⟩

/-- A message too long for the modulus is answered by the empty string. -/
theorem C18_too_long (draws m : Bytes) (k : Nat) (hk : k < 2 ^ 32) (h11 : 11 ≤ k) (hm : k < m.length + 11) :
    emeEncode draws m k = .ok [] := by
  have h1 : (k + 2 ^ 32 - 11) % 2 ^ 32 < m.length := by omega
  rw [emeEncode, if_pos h1]

theorem firstZero_eq {pre ps rest : Bytes} (h : ∀ c ∈ ps, c ≠ 0) :
    firstZero (pre ++ ps ++ 0 :: rest) pre.length = pre.length + ps.length := by
  rw [firstZero, List.append_assoc, List.drop_left]
  have : (ps ++ 0 :: rest).takeWhile (· ≠ 0) = ps := by
    rw [List.takeWhile_append_of_pos (by intro c hc; simpa using h c hc)]
    simp
  rw [this]

theorem firstZero_none {pre ps : Bytes} (h : ∀ c ∈ ps, c ≠ 0) :
    firstZero (pre ++ ps) pre.length = pre.length + ps.length := by
  rw [firstZero, List.drop_left]
  have : ps.takeWhile (· ≠ 0) = ps := by
    have := List.takeWhile_append_of_pos (p := (· ≠ 0)) (l₁ := ps) (l₂ := []) (by intro c hc; simpa using h c hc)
    simpa using this
  rw [this]

/-- Decoding any well-formed block of more than eleven octets gives its message. -/
theorem C18_decode {ps m em : Bytes} (h : IsEme ps m em) (hl : 11 < em.length) : emeDecode em = .ok m := by
  obtain ⟨rfl, hps⟩ := h
  have hz : firstZero ([0, 2] ++ ps ++ [0] ++ m) 2 = 2 + ps.length := by
    have := firstZero_eq (pre := [0, 2]) (rest := m) hps
    simpa using this
  rw [emeDecode, if_pos hl]
  have e0 : charAt ([0, 2] ++ ps ++ [0] ++ m) 0 = .ok 0 := charAt_drop (by simp; rfl)
  have e1 : charAt ([0, 2] ++ ps ++ [0] ++ m) 1 = .ok 2 := charAt_drop (by simp; rfl)
  simp only [e0, e1, Out.ok_bind]
  rw [if_pos (by decide), hz]
  refine substr_drop (rest := []) ?_ ?_ ?_
  · simp; omega
  · have : [0, 2] ++ ps ++ [0] ++ m = ([0, 2] ++ ps ++ [0]) ++ m := by simp
    rw [this, List.append_nil]
    have hl2 : 2 + ps.length + 1 = ([0, 2] ++ ps ++ [0] : Bytes).length 
      := by simp; omega
    rw [hl2, List.drop_left]
  · have hlen : ([0, 2] ++ ps ++ [0] ++ m : Bytes).length = 2 + ps.length + (m.length + 1) := by simp; omega
    have hs : ∀ a b : Nat, subSz (a + b) a = b := fun a b => by unfold subSz; rw [if_pos (by omega)]; omega
    rw [hlen, hs, Nat.add_comm m.length 1, hs]

theorem exists_zero_split (s : Bytes) : (∀ c ∈ s, c ≠ 0) ∨ ∃ ps m, s = ps ++ 0 :: m ∧ ∀ c ∈ ps, c ≠ 0 := by
  induction s with
  | nil => left; simp
  | cons c s ih =>
    by_cases hc : c = 0
    · right; exact ⟨[], s, by simp [hc], by simp⟩
    · rcases ih with h | ⟨ps, m, rfl, h⟩
      · left; intro d hd; rcases List.mem_cons.mp hd with rfl | hd
        · exact hc
        · exact h d hd
      · right; refine ⟨c :: ps, m, by simp, ?_⟩
        intro d hd; rcases List.mem_cons.mp hd with rfl | hd
        · exact hc
        · exact h d hd

/-- Decoding yields a message only from a well-formed block of more than eleven octets, and then the message in it. -/
theorem C18_decode_only {em d : Bytes} (h : emeDecode em = .ok d) (hd : d ≠ []) :
    11 < em.length ∧ ∃ ps, IsEme ps d em := by
  rw [emeDecode] at h
  split at h
  · rename_i hl
    refine ⟨hl, ?_⟩
    obtain ⟨a, b, s, rfl⟩ : ∃ a b s, em = a :: b :: s := by
      rcases em with _ | ⟨a, _ | ⟨b, s⟩⟩
      · simp at hl
      · simp at hl
      · exact ⟨a, b, s, rfl⟩
    have e0 : charAt (a :: b :: s) 0 = .ok a := rfl
    have e1 : charAt (a :: b :: s) 1 = .ok b := rfl
    simp only [e0, e1, Out.ok_bind] at h
    split at h
    · rename_i hab
      obtain ⟨rfl, rfl⟩ := hab
      rcases exists_zero_split s with hs | ⟨ps, m, rfl, hs⟩
      · have := firstZero_none (pre := [0, 2]) hs
        simp only [List.cons_append, List.nil_append, List.length_cons, List.length_nil] at this
        rw [this, substr, if_pos (by simp; omega)] at h
        exact absurd h (by simp)
      · have hi : IsEme ps m (0 :: 2 :: (ps ++ 0 :: m)) := ⟨by simp, hs⟩
        have := C18_decode hi hl
        rw [emeDecode, if_pos hl] at this
        simp only [e0, e1, Out.ok_bind] at this
        rw [if_pos (by decide), h] at this
        cases this
        exact ⟨ps, hi⟩
    · cases h; exact absurd rfl hd
  · cases h; exact absurd rfl hd

/-- Without a separating zero octet decoding throws. -/
theorem C18_decode_no_separator_throws (s : Bytes) (hs : ∀ c ∈ s, c ≠ 0) (hl : 9 < s.length) :
    emeDecode (0 :: 2 :: s) = .throw := by
  have := firstZero_none (pre := [0, 2]) hs
  simp only [List.cons_append, List.nil_append, List.length_cons, List.length_nil] at this
  rw [emeDecode, if_pos (by simp; omega)]
  have e0 : charAt (0 :: 2 :: s) 0 = .ok 0 := rfl
  have e1 : charAt (0 :: 2 :: s) 1 = .ok 2 := rfl
  simp only [e0, e1, Out.ok_bind]
  rw [if_pos (by decide), this, substr, if_pos (by simp; omega)]

/-- The canonical octets of the number of a string with a non-zero head are the string. -/
theorem mpiRaw_num {c : UInt8} {s : Bytes} (hc : c ≠ 0) : mpiRaw (num (c :: s)) = c :: s := by
  have h0 : 0 < c.toNat := by
    rcases Nat.eq_zero_or_pos c.toNat with h | h
    · exact absurd (UInt8.toNat_inj.mp (by simpa using h)) hc
    · exact h
  have hlo : 256 ^ s.length ≤ num (c :: s) := by
    rw [num_cons]
    exact Nat.le_add_right_of_le (Nat.le_mul_of_pos_left _ h0)
  have hhi : num (c :: s) < 256 ^ (s.length + 1) := by simpa using num_lt (c :: s)
  have hlog : (num (c :: s)).log2 / 8 = s.length := by
    have hp : ∀ j, 256 ^ j = 2 ^ (8 * j) := fun j => by rw [Nat.pow_mul]
    rw [hp] at hlo hhi
    have hne : num (c :: s) ≠ 0 := by
      have := Nat.two_pow_pos (8 * s.length); omega
    have h1 := (Nat.le_log2 hne).mpr hlo
    have h2 := (Nat.log2_lt hne).mpr hhi
    omega
  rw [mpiRaw, hlog]
  exact be_num (c :: s)

/-- The way of an encoded message through encryption and decryption: turned into an integer, back into octets without the
leading zero, the zero put back (decrypt.cpp:149-152), decoded. The result is the message, whatever was drawn. -/
theorem C18_roundtrip {draws m em : Bytes} {k : Nat} (hk : k < 2 ^ 32) (hm : m.length + 11 ≤ k) (hne : 12 ≤ k)
    (h : emeEncode draws m k = .ok em) :
    emeDecode em = .ok m ∧
    (do let i ← rawtompi em
        let o ← mpitoraw i
        emeDecode (0 :: o)) = .ok m := by
  obtain ⟨hi, hl, _⟩ := C18_encode hk hm h
  have hd := C18_decode hi (by omega)
  refine ⟨hd, ?_⟩
  have hem : em = 0 :: 2 :: ((draws.filter (· ≠ 0)).take (k - m.length - 3) ++ [0] ++ m) := by
    rw [hi.1]; simp
  have hn : em ≠ [] := by rw [hem]; simp
  rw [rawtompi_eq, if_neg hn, Out.ok_bind, mpitoraw_eq, Out.ok_bind]
  have : num em = num (2 :: ((draws.filter (· ≠ 0)).take (k - m.length - 3) ++ [0] ++ m)) := by
    rw [hem, num_cons]; simp
  rw [this, mpiRaw_num (by decide), ← hem]
  exact hd

/-- For `k = 11` the only message is the empty one, whose block has eleven octets and decodes to the empty string by the
length test. -/
theorem C18_eleven (em : Bytes) (h : em.length ≤ 11) : emeDecode em = .ok [] := by
  rw [emeDecode, if_neg (by omega)]; rfl

/-- For `k < 11` the length test wraps around: every message of at least `k` octets makes the padding loop run until a
string of almost `2 ^ 64` octets is built; here: no sequence of fewer than `2 ^ 63` draws ends it. -/
theorem C18_small_modulus_fails (draws m : Bytes) (k : Nat) (hk : k < 11) (hm : k ≤ m.length) (hm2 : m.length < 2 ^ 31)
    (hd : draws.length < 2 ^ 63) : emeEncode draws m k = .diverge := by
  have h1 : ¬ (k + 2 ^ 32 - 11) % 2 ^ 32 < m.length := by
    rw [Nat.mod_eq_of_lt (by omega)]; omega
  have h2 : [(0 : UInt8), 2].length + draws.length < subSz (subSz k m.length) 1 := by
    have : [(0 : UInt8), 2].length = 2 := rfl
    rw [this]
    rcases Nat.lt_or_ge k m.length with h | h
    · have e : subSz k m.length = k + 2 ^ 64 - m.length := if_neg (by omega)
      have e2 : subSz (k + 2 ^ 64 - m.length) 1 = k + 2 ^ 64 - m.length - 1 := if_pos (by omega)
      rw [e, e2]; omega
    · have e : subSz k m.length = 0 := by
        rw [subSz, if_pos (by omega)]; omega
      have e2 : subSz 0 1 = 2 ^ 64 - 1 := by rw [subSz, if_neg (by omega)]; omega
      rw [e, e2]; omega
  rw [emeEncode, if_neg h1, emePad_short h2]
  rfl

/-- A concrete case: a four octet message in a block of sixteen octets; the second draw is a zero and is skipped. -/
example : emeEncode [7, 0, 1, 2, 3, 4, 5, 6, 9, 9] [9, 0xab, 0, 1] 16
    = .ok [0, 2, 7, 1, 2, 3, 4, 5, 6, 9, 9, 0, 9, 0xab, 0, 1] := by decide
example : emeDecode [0, 2, 7, 1, 2, 3, 4, 5, 6, 9, 9, 0, 9, 0xab, 0, 1] = .ok [9, 0xab, 0, 1] := by decide

end OpenPGP
