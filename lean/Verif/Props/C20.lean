import Verif.Lemmas.S2K

/-!
# C20: string-to-key specifiers survive write and read, and hash the prescribed octets
-/
namespace OpenPGP
open S2K

/-- Any specifier (simple, salted, iterated) with an eight-octet salt, anywhere in the input, is read back as the same
object and the position is left exactly behind it. -/
theorem C20_roundtrip (s : S2K) (h : s.wf) (pre post : Bytes) :
    S2K.read (pre ++ s.raw ++ post) pre.length = .ok (s, pre.length + s.raw.length) :=
  S2K.read_at s h (rest := post) (by rw [List.append_assoc, List.drop_left])

example : (S2K.iterated 8 [1, 2, 3, 4, 5, 6, 7, 8] 96).wf := rfl

/-- Every specifier that is read has an eight-octet salt and is exactly the octets consumed. -/
theorem C20_read_exact (data : Bytes) (pos : Nat) (s : S2K) (p : Nat) (h : S2K.read data pos = .ok (s, p))
    (hp : p ≤ data.length) : s.wf ∧ p = pos + s.raw.length ∧ (data.drop pos).take s.raw.length = s.raw := by
  have hsalt : ∀ q t, readSalt data q = .ok t → t.length = 8 ∧ (data.drop q).take 8 = t := by
    intro q t ht
    rw [readSalt, substr] at ht
    split at ht
    · exact absurd ht (by simp)
    · rw [Out.ok_bind] at ht
      split at ht
      · exact absurd ht (by simp)
      · rename_i h8
        obtain rfl := Out.ok.inj ht
        exact ⟨by simpa using h8, rfl⟩
  have hchar : ∀ q a, charAt data q = .ok a → q < data.length → data.drop q = a :: data.drop (q + 1) := by
    intro q a ha hq
    rw [charAt, dif_pos hq] at ha
    rw [List.drop_eq_getElem_cons hq, Out.ok.inj ha]
  rw [S2K.read, Out.bind_eq_ok] at h
  obtain ⟨ty, hty, h⟩ := h
  by_cases h0 : ty = 0
  · rw [if_pos h0, Out.bind_eq_ok] at h
    obtain ⟨a, ha, h⟩ := h
    obtain ⟨rfl, rfl⟩ := Prod.mk.inj (Out.ok.inj h)
    refine ⟨trivial, rfl, ?_⟩
    rw [hchar pos ty hty (by omega), hchar (pos + 1) a ha (by omega), h0]
    rfl
  · rw [if_neg h0] at h
    by_cases h1 : ty = 1
    · rw [if_pos h1, Out.bind_eq_ok] at h
      obtain ⟨a, ha, h⟩ := h
      rw [Out.bind_eq_ok] at h
      obtain ⟨t, ht, h⟩ := h
      obtain ⟨rfl, rfl⟩ := Prod.mk.inj (Out.ok.inj h)
      obtain ⟨h8, h9⟩ := hsalt _ _ ht
      refine ⟨h8, by simp [raw, h8], ?_⟩
      rw [hchar pos ty hty (by omega), hchar (pos + 1) a ha (by omega), h1]
      simp [raw, h8, h9]
    · rw [if_neg h1] at h
      by_cases h3 : ty = 3
      · rw [if_pos h3, Out.bind_eq_ok] at h
        obtain ⟨a, ha, h⟩ := h
        rw [Out.bind_eq_ok] at h
        obtain ⟨t, ht, h⟩ := h
        rw [Out.bind_eq_ok] at h
        obtain ⟨c, hc, h⟩ := h
        obtain ⟨rfl, rfl⟩ := Prod.mk.inj (Out.ok.inj h)
        obtain ⟨h8, h9⟩ := hsalt _ _ ht
        refine ⟨h8, by simp [raw, h8], ?_⟩
        have h10 := hchar (pos + 10) c hc (by omega)
        rw [hchar pos ty hty (by omega), hchar (pos + 1) a ha (by omega), h3]
        have : (data.drop (pos + 2)).take 9 = t ++ [c] := by
          rw [show (9 : Nat) = 8 + 1 by rfl, List.take_add, h9, List.drop_drop, show pos + 2 + 8 = pos + 10 by omega, h10]
          rfl
        simp [raw, h8, this]
      · rw [if_neg h3] at h
        exact absurd h (by simp)

/-- A specifier that reaches over the end of the input can only do so by one octet: the terminating NUL of the string. -/
theorem C20_read_bound (data : Bytes) (pos : Nat) (s : S2K) (p : Nat) (h : S2K.read data pos = .ok (s, p)) :
    p ≤ data.length + 1 := by
  have hchar : ∀ q a, charAt data q = .ok a → q ≤ data.length := by
    intro q a ha
    by_contra hc
    rw [charAt, dif_neg (by omega), if_neg (by omega)] at ha
    exact absurd ha (by simp)
  have hsalt : ∀ q t, readSalt data q = .ok t → q + 8 ≤ data.length := by
    intro q t ht
    rw [readSalt, substr] at ht
    split at ht
    · exact absurd ht (by simp)
    · rw [Out.ok_bind] at ht
      split at ht
      · exact absurd ht (by simp)
      · rename_i h8
        simp at h8
        omega
  rw [S2K.read, Out.bind_eq_ok] at h
  obtain ⟨ty, hty, h⟩ := h
  split at h
  · rw [Out.bind_eq_ok] at h
    obtain ⟨a, ha, h⟩ := h
    obtain ⟨rfl, rfl⟩ := Prod.mk.inj (Out.ok.inj h)
    have := hchar _ _ ha
    omega
  · split at h
    · rw [Out.bind_eq_ok] at h
      obtain ⟨a, ha, h⟩ := h
      rw [Out.bind_eq_ok] at h
      obtain ⟨t, ht, h⟩ := h
      obtain ⟨rfl, rfl⟩ := Prod.mk.inj (Out.ok.inj h)
      have := hsalt _ _ ht
      omega
    · split at h
      · rw [Out.bind_eq_ok] at h
        obtain ⟨a, ha, h⟩ := h
        rw [Out.bind_eq_ok] at h
        obtain ⟨t, ht, h⟩ := h
        rw [Out.bind_eq_ok] at h
        obtain ⟨c, hc, h⟩ := h
        obtain ⟨rfl, rfl⟩ := Prod.mk.inj (Out.ok.inj h)
        have := hchar _ _ hc
        omega
      · exact absurd h (by simp)

/-- `run` never fails for a known hash algorithm: it returns exactly `len` octets, and these are the first `len` octets of
the concatenated digests of the prescribed contexts (`s2kInput`: zero preload, then salt and passphrase repeated up to
`max(count, |salt| + |pass|)` octets for the iterated kind), for every passphrase and length. -/
theorem C20_run (cr : Crypto) (hcr : cr.Ok) (s : S2K) (hs : s.wf) (D : Nat) (hD : hashLen s.hash = some D)
    (pass : Bytes) (len n : Nat) (hn : len ≤ n * D) :
    ∃ key, s.run cr pass len = .ok key ∧ key.length = len ∧ key = (s2kStream cr s pass n).take len := by
  have hl : ((s2kStream cr s pass n).take len).length = len := by
    rw [List.length_take, stream_length hcr hD]; omega
  refine ⟨_, ?_, hl, rfl⟩
  cases s with
  | simple h =>
    obtain ⟨m, h1, h2⟩ := runLoop_eq hcr hD pass pass (fun i => rfl) len (len + 1) 0 (by omega) (by omega)
    change (runLoop cr h pass len (len + 1) 0 [] >>= fun out => pure (out.take len)) = _
    have h1' : runLoop cr h pass len (len + 1) 0 [] = .ok (s2kStream cr (.simple h) pass m) := h1
    rw [h1', Out.ok_bind, Out.pure_eq, stream_take' hcr hD pass h2 hn]
  | salted h salt =>
    obtain ⟨m, h1, h2⟩ := runLoop_eq hcr hD pass (salt ++ pass) (fun i => rfl) len (len + 1) 0 (by omega) (by omega)
    have h1' : runLoop cr h (salt ++ pass) len (len + 1) 0 [] = .ok (s2kStream cr (.salted h salt) pass m) := h1
    change (runLoop cr h (salt ++ pass) len (len + 1) 0 [] >>= fun out => pure (out.take len)) = _
    rw [h1', Out.ok_bind, Out.pure_eq, stream_take' hcr hD pass h2 hn]
  | iterated h salt c =>
    have hD' : hashLen h = some D := hD
    have h8 : salt.length = 8 := hs
    have hp := hashLen_pos hD
    have hc : 0 < (salt ++ pass).length := by rw [List.length_append]; omega
    rw [run, hD', mapAt, Out.ok_bind]
    dsimp only
    rw [contextLoop_eq cr h (by rw [hD']; rfl) hc, Out.ok_bind, Out.pure_eq, List.nil_append, codedCount_eq,
      ← List.range_eq_range']
    rw [← stream_take' hcr hD pass (n := len / D + if len % D ≠ 0 then 1 else 0) (m := n) _ hn]
    · rfl
    · have := Nat.div_add_mod len D
      have := Nat.mod_lt len (show 0 < D by omega)
      split
      · rw [Nat.add_mul, Nat.mul_comm]; omega
      · rename_i h0
        rw [Nat.add_zero, Nat.mul_comm]; omega

example : demoCrypto.Ok ∧ (S2K.iterated 2 [1, 2, 3, 4, 5, 6, 7, 8] 96).wf ∧
    hashLen (S2K.iterated 2 [1, 2, 3, 4, 5, 6, 7, 8] 96).hash = some 20 ∧ 32 ≤ 2 * 20 :=
  ⟨demoCrypto_ok, rfl, rfl, by decide⟩

/-- An unknown hash algorithm is refused whenever key octets are wanted. -/
theorem C20_unknown_hash (cr : Crypto) (s : S2K) (hD : hashLen s.hash = none) (pass : Bytes) (len : Nat) (h : 0 < len) :
    s.run cr pass len = .throw := by
  cases s with
  | simple a =>
    have : hashLen a = none := hD
    rw [run, runLoop, if_pos (by simpa using h), hashUse, this]; rfl
  | salted a salt =>
    have : hashLen a = none := hD
    rw [run, runLoop, if_pos (by simpa using h), hashUse, this]; rfl
  | iterated a salt c =>
    have : hashLen a = none := hD
    rw [run, this]; rfl

example : hashLen (S2K.simple 4).hash = none := rfl

/-- Disagreement: an iterated specifier that was never given a salt hashes an empty passphrase without end. -/
theorem C20_no_salt_diverges (cr : Crypto) (h c : UInt8) (D : Nat) (hD : hashLen h = some D) (len : Nat) (hl : 0 < len) :
    (S2K.iterated h [] c).run cr [] len = .diverge := by
  have hp := hashLen_pos (h := h) hD
  have hpos : 0 < codedCount c := by
    rw [codedCount, Nat.shiftLeft_eq]; positivity
  have hloop : ∀ fuel f, feedLoop [] (codedCount c) fuel f 0 = .diverge := by
    intro fuel
    induction fuel with
    | zero => intro f; rfl
    | succ fuel ih =>
      intro f
      rw [feedLoop]
      simp only [List.append_nil, List.length_nil, Nat.add_zero]
      rw [if_pos hpos, ih]
  rw [run, hD, mapAt, Out.ok_bind]
  dsimp only
  obtain ⟨k, hk⟩ : ∃ k, len / D + (if len % D ≠ 0 then 1 else 0) = k + 1 := by
    have := Nat.div_add_mod len D
    by_cases h0 : len % D = 0
    · have : 0 < len / D := by
        rcases Nat.eq_zero_or_pos (len / D) with h1 | h1
        · rw [h1] at this; omega
        · exact h1
      exact ⟨len / D - 1, by rw [if_neg (by simpa using h0)]; omega⟩
    · exact ⟨len / D, by rw [if_pos h0]⟩
  rw [hk, contextLoop, List.append_nil, hloop]
  rfl

end OpenPGP
