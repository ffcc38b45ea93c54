import Verif.Spec.S2K
import Verif.Lemmas.Tag2

namespace OpenPGP
namespace S2K

theorem codedCount_eq (c : UInt8) : codedCount c = rfcCount c := by
  rw [codedCount, rfcCount, Nat.shiftLeft_eq]

theorem raw_ne_nil (s : S2K) : s.raw ≠ [] := by cases s <;> simp [raw]

theorem read_at (s : S2K) (h : s.wf) {data : Bytes} {pos : Nat} {rest : Bytes}
    (hd : data.drop pos = s.raw ++ rest) : read data pos = .ok (s, pos + s.raw.length) := by
  cases s with
  | simple a =>
    have hd0 : data.drop pos = [0] ++ ([a] ++ rest) := by rw [hd]; simp [raw]
    have hd1 := drop_field hd0 (n := 1) rfl
    rw [read, charAt_drop hd0, Out.ok_bind, if_pos rfl, charAt_drop hd1]
    rfl
  | salted a salt =>
    have hd0 : data.drop pos = [1] ++ ([a] ++ (salt ++ rest)) := by rw [hd]; simp [raw]
    have hd1 := drop_field hd0 (n := 1) rfl
    have hd2 := drop_field hd1 (n := 1) rfl
    have hp : pos + 2 ≤ data.length := le_of_drop_cons hd1
    have h8 : salt.length = 8 := h
    rw [read, charAt_drop hd0, Out.ok_bind, if_neg (by decide), if_pos rfl, charAt_drop hd1, Out.ok_bind, readSalt,
      substr_drop hp hd2 h8, Out.ok_bind, if_neg (by simpa using h8)]
    simp [raw, h8]
  | iterated a salt c =>
    have hd0 : data.drop pos = [3] ++ ([a] ++ (salt ++ ([c] ++ rest))) := by rw [hd]; simp [raw]
    have hd1 := drop_field hd0 (n := 1) rfl
    have hd2 := drop_field hd1 (n := 1) rfl
    have hp : pos + 2 ≤ data.length := le_of_drop_cons hd1
    have h8 : salt.length = 8 := h
    have hd3 := drop_field hd2 h8
    rw [read, charAt_drop hd0, Out.ok_bind, if_neg (by decide), if_neg (by decide), if_pos rfl, charAt_drop hd1,
      Out.ok_bind, readSalt, substr_drop hp hd2 h8, Out.ok_bind, if_neg (by simpa using h8), Out.ok_bind,
      show pos + 10 = pos + 1 + 1 + 8 by omega, charAt_drop hd3]
    simp [raw, h8]

/-! ### Repetition -/

theorem flatten_replicate_length (k : Nat) (c : Bytes) : ((List.replicate k c).flatten).length = k * c.length := by
  simp

theorem take_flatten_replicate {n m : Nat} {c : Bytes} (h : n ≤ m * c.length) (j : Nat) :
    ((List.replicate (m + j) c).flatten).take n = ((List.replicate m c).flatten).take n := by
  rw [← List.replicate_append_replicate, List.flatten_append, List.take_append_of_le_length (by rw [flatten_replicate_length]; exact h)]

theorem firstOfRepeated_eq {n m : Nat} {c : Bytes} (hc : 0 < c.length) (h : n ≤ m * c.length) :
    firstOfRepeated n c = ((List.replicate m c).flatten).take n := by
  have h1 : n ≤ n * c.length := Nat.le_mul_of_pos_right n hc
  rw [firstOfRepeated, ← take_flatten_replicate h1 m, Nat.add_comm, take_flatten_replicate h n]

theorem firstOfRepeated_length {n : Nat} {c : Bytes} (hc : 0 < c.length) : (firstOfRepeated n c).length = n := by
  rw [firstOfRepeated, List.length_take, flatten_replicate_length]
  have : n ≤ n * c.length := Nat.le_mul_of_pos_right n hc
  omega

/-! ### The loops -/

theorem feedLoop_eq {c : Bytes} (hc : 0 < c.length) (coded : Nat) (fed : Bytes) :
    ∀ (fuel k : Nat) (acc : Bytes), acc = fed ++ (List.replicate k c).flatten → coded < fuel + k * c.length → 0 < fuel →
    ∃ k', k + 1 ≤ k' ∧ feedLoop c coded fuel acc (k * c.length) = .ok (fed ++ (List.replicate k' c).flatten, k' * c.length) ∧
      coded ≤ (k' + 1) * c.length ∧ (k' = k + 1 ∨ k' * c.length < coded) := by
  intro fuel
  induction fuel with
  | zero => intro k acc _ _ h; omega
  | succ fuel ih =>
    intro k acc hacc hf _
    have e1 : acc ++ c = fed ++ (List.replicate (k + 1) c).flatten := by
      rw [hacc, List.append_assoc, List.replicate_succ', List.flatten_append]; simp
    have e2 : k * c.length + c.length = (k + 1) * c.length := by ring
    rw [feedLoop, e2, show (k + 1) * c.length + c.length = (k + 1 + 1) * c.length by ring]
    split
    · rename_i hlt
      have e3 : (k + 1 + 1) * c.length = k * c.length + c.length + c.length := by ring
      obtain ⟨k', h1, h2, h3, h4⟩ := ih (k + 1) (acc ++ c) e1 (by rw [← e2]; omega) (by omega)
      refine ⟨k', by omega, h2, h3, Or.inr ?_⟩
      rcases h4 with rfl | h4
      · exact hlt
      · exact h4
    · rename_i hge
      exact ⟨k + 1, le_rfl, by rw [e1], by omega, Or.inl rfl⟩

/-- What one context of the iterated kind hashes. -/
theorem feed_eq {c : Bytes} (hc : 0 < c.length) (coded : Nat) (fed : Bytes) :
    ∃ f h, feedLoop c coded (coded + 1) fed 0 = .ok (f, h) ∧
      (if h < coded then f ++ c.take (coded - h) else f) = fed ++ firstOfRepeated (max coded c.length) c := by
  obtain ⟨k, h1, h2, h3, h4⟩ := feedLoop_eq hc coded fed (coded + 1) 0 fed (by simp) (by omega) (by omega)
  rw [Nat.zero_mul] at h2
  refine ⟨_, _, h2, ?_⟩
  have e : (k + 1) * c.length = k * c.length + c.length := by ring
  have hk : c.length ≤ k * c.length := Nat.le_mul_of_pos_left _ (by omega)
  split
  · rename_i hlt
    rw [Nat.max_eq_left (by omega), firstOfRepeated_eq hc h3, List.append_assoc, List.replicate_succ',
      List.flatten_append, List.take_append, flatten_replicate_length,
      List.take_of_length_le (l := (List.replicate k c).flatten) (by rw [flatten_replicate_length]; omega)]
    simp
  · rename_i hge
    have hk1 : k = 1 := by omega
    subst hk1
    rw [Nat.max_eq_right (by omega), firstOfRepeated_eq (m := 1) hc (by omega)]
    simp

theorem contextLoop_eq (cr : Crypto) (h : UInt8) (hh : (hashLen h).isSome) {c : Bytes} (hc : 0 < c.length) (coded : Nat) :
    ∀ (left ctx : Nat) (out : Bytes),
    contextLoop cr h c coded left ctx out = .ok (out ++ (List.range' ctx left).flatMap fun i =>
      cr.hash h (List.replicate i 0 ++ firstOfRepeated (max coded c.length) c)) := by
  intro left
  induction left with
  | zero => intro ctx out; simp [contextLoop]
  | succ left ih =>
    intro ctx out
    obtain ⟨f, n, h1, h2⟩ := feed_eq hc coded (List.replicate ctx 0)
    rw [contextLoop, h1, Out.ok_bind]
    dsimp only
    rw [h2, hashUse, if_pos hh, Out.ok_bind, ih, List.range'_succ, List.flatMap_cons, List.append_assoc]

theorem stream_succ (cr : Crypto) (s : S2K) (pass : Bytes) (n : Nat) :
    s2kStream cr s pass (n + 1) = s2kStream cr s pass n ++ cr.hash s.hash (s2kInput s pass n) := by
  simp [s2kStream, List.range_succ]

theorem stream_length {cr : Crypto} (hcr : cr.Ok) {s : S2K} {D : Nat} (hD : hashLen s.hash = some D) (pass : Bytes)
    (n : Nat) : (s2kStream cr s pass n).length = n * D := by
  induction n with
  | zero => simp [s2kStream]
  | succ n ih => rw [stream_succ, List.length_append, ih, hcr.hash_len _ _ _ hD]; ring

theorem stream_take {cr : Crypto} (hcr : cr.Ok) {s : S2K} {D : Nat} (hD : hashLen s.hash = some D) (pass : Bytes)
    {len n : Nat} (h : len ≤ n * D) (j : Nat) :
    (s2kStream cr s pass (n + j)).take len = (s2kStream cr s pass n).take len := by
  induction j with
  | zero => rfl
  | succ j ih =>
    rw [← Nat.add_assoc, stream_succ, List.take_append_of_le_length, ih]
    rw [stream_length hcr hD]
    have : n * D ≤ (n + j) * D := Nat.mul_le_mul_right _ (by omega)
    omega

theorem stream_take' {cr : Crypto} (hcr : cr.Ok) {s : S2K} {D : Nat} (hD : hashLen s.hash = some D) (pass : Bytes)
    {len n m : Nat} (h : len ≤ n * D) (h' : len ≤ m * D) :
    (s2kStream cr s pass n).take len = (s2kStream cr s pass m).take len := by
  rw [← stream_take hcr hD pass h m, Nat.add_comm, stream_take hcr hD pass h' n]

theorem hashLen_pos {h : UInt8} {D : Nat} (hD : hashLen h = some D) : 16 ≤ D := by
  unfold hashLen at hD
  repeat' split at hD
  all_goals first | (obtain rfl := Option.some.inj hD; omega) | exact absurd hD (by simp)

theorem runLoop_eq {cr : Crypto} (hcr : cr.Ok) {s : S2K} {D : Nat} (hD : hashLen s.hash = some D) (pass tail : Bytes)
    (ht : ∀ i, s2kInput s pass i = List.replicate i 0 ++ tail) (len : Nat) :
    ∀ (fuel n : Nat), len < fuel + n * D → 0 < fuel →
    ∃ m, runLoop cr s.hash tail len fuel n (s2kStream cr s pass n) = .ok (s2kStream cr s pass m) ∧ len ≤ m * D := by
  have hp := hashLen_pos hD
  intro fuel
  induction fuel with
  | zero => intro n _ h; omega
  | succ fuel ih =>
    intro n hn _
    rw [runLoop, stream_length hcr hD]
    split
    · obtain ⟨m, h1, h2⟩ := ih (n + 1) (by rw [Nat.add_mul]; omega) (by omega)
      refine ⟨m, ?_, h2⟩
      rw [hashUse, if_pos (by rw [hD]; rfl), Out.ok_bind, ← ht, ← stream_succ, h1]
    · exact ⟨n, rfl, by omega⟩

end S2K
end OpenPGP
