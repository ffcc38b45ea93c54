import Verif.Lemmas.Time

/-!
# C67: times are shown as what they are
-/
namespace OpenPGP
open Calendar

/-! ## Moments -/

theorem dec2_two {n : Nat} (h : n < 100) : dec2 n = twoDigits n := by
  have : ∀ n < 100, dec2 n = twoDigits n := by decide +kernel
  exact this n h

/-- **The date and time shown are those of the calendar.** The text names the one date and time of day in the Gregorian calendar that is so many seconds after the start of 1970, with the
day of the week, of which each follows the one before. -/
theorem C67_time (t : Nat) : ∃ y m d h i s w, Valid y m d h i s ∧ Calendar.seconds y m d h i s = t ∧ w < 7 ∧ w = (t / 86400 + 4) % 7 ∧
    showTime t = ascii (["Sun", "Mon", "Tues", "Wed", "Thur", "Fri", "Sat"].getD w "") ++ ascii " " ++
      ascii (["Jan", "Feb", "Mar", "Apr", "May", "Jun", "Jul", "Aug", "Sept", "Oct", "Nov", "Dec"].getD (m - 1) "") ++ ascii " " ++ dec d ++ ascii " " ++
      twoDigits h ++ ascii ":" ++ twoDigits i ++ ascii ":" ++ twoDigits s ++ ascii " UTC " ++ dec y ∧
    ∀ y' m' d' h' i' s', Valid y' m' d' h' i' s' → Calendar.seconds y' m' d' h' i' s' = t → y' = y ∧ m' = m ∧ d' = d ∧ h' = h ∧ i' = i ∧ s' = s := by
  obtain ⟨v, e⟩ := gmtime_spec t
  have v2 := v
  obtain ⟨-, -, -, -, -, a6, a7, a8⟩ := v2
  refine ⟨_, _, _, _, _, _, (gmtime t).wday, v, e, Nat.mod_lt _ (by decide), rfl, ?_, fun _ _ _ _ _ _ v' e' => seconds_inj v' v (e'.trans e.symm)⟩
  rw [← dec2_two (by omega), ← dec2_two (by omega), ← dec2_two (by omega)]
  rfl

/-- **Different moments look different.** -/
theorem C67_time_only (t t' : Nat) : showTime t = showTime t' ↔ t = t' := ⟨showTime_inj, congrArg _⟩

theorem dec2_month {a b : Nat} (ha : a < 100) (hb : b < 100) (h : dec2 a = dec2 b) : a = b := by
  have : ∀ a < 100, ∀ b < 100, dec2 a = dec2 b → a = b := by decide +kernel
  exact this a ha b hb h

theorem months_le (y m : Nat) : (months y).getD m 0 ≤ 31 := by
  have : ∀ x ∈ months y, x ≤ 31 := by
    intro x hx
    simp only [months, List.mem_cons, List.not_mem_nil, or_false] at hx
    split at hx <;> omega
  rw [List.getD_eq_getElem?_getD]
  cases hm : (months y)[m]? with
  | none => simp
  | some x => exact this x (List.mem_of_getElem? hm)

/-- **The date alone** is that of the same calendar, year, month and day. -/
theorem C67_date_shown (t : Nat) : ∃ y m d h i s, Valid y m d h i s ∧ Calendar.seconds y m d h i s = t ∧
    showDate t = dec y ++ ascii "-" ++ twoDigits m ++ ascii "-" ++ twoDigits d := by
  obtain ⟨v, e⟩ := gmtime_spec t
  have v2 := v
  obtain ⟨-, a2, a3, -, a5, -, -, -⟩ := v2
  have := months_le (gmtime t).year ((gmtime t).mon + 1 - 1)
  refine ⟨_, _, _, _, _, _, v, e, ?_⟩
  rw [← dec2_two (by omega), ← dec2_two (by omega)]
  rfl

/-- **Dates look the same exactly within a day.** -/
theorem C67_date (t t' : Nat) : showDate t = showDate t' ↔ t / 86400 = t' / 86400 := by
  constructor
  · intro h
    obtain ⟨v, e⟩ := gmtime_spec t
    obtain ⟨v', e'⟩ := gmtime_spec t'
    have hy : (ascii "-") = [45] := by decide +kernel
    unfold showDate at h
    simp only [hy, List.append_assoc, List.cons_append, List.nil_append] at h
    obtain ⟨e1, h⟩ := first_split (dec_not (by decide)) (dec_not (by decide)) h
    obtain ⟨e2, e3⟩ := first_split (dec2_not (by decide)) (dec2_not (by decide)) h
    obtain ⟨-, -, a3, -, a5, a6, a7, a8⟩ := v
    obtain ⟨-, -, b3, -, b5, b6, b7, b8⟩ := v'
    have  := months_le (gmtime t).year ((gmtime t).mon + 1 - 1)
    have  := months_le (gmtime t').year ((gmtime t').mon + 1 - 1)
    have e1 := dec_inj e1
    have e2 := dec2_month (by omega) (by omega) e2
    have e3 := dec2_month (by omega) (by omega) e3
    unfold Calendar.seconds at e e'
    rw [← e1, ← e2, ← e3] at e'
    omega
  · intro h
    unfold showDate gmtime
    rw [h]

/-! ## Lengths of time -/

private def unitWords : List (List Bytes) :=
  [[ascii "year", ascii "years"], [ascii "day", ascii "days"], [ascii "hour", ascii "hours"], [ascii "minute", ascii "minutes"], [ascii "second", ascii "seconds"]]

/-- What is there before unit `k`: nothing or the sign, or it ends with the word of an earlier unit. -/
private def Before (k : Nat) (x : Bytes) : Prop := 32 ∉ x ∨ ∃ a w, x = a ++ 32 :: w ∧ ∃ j < k, w ∈ unitWords.getD j []

private theorem word_space {j : Nat} {w : Bytes} (h : w ∈ unitWords.getD j []) : 32 ∉ w := by
  have all : ∀ l ∈ unitWords, ∀ w ∈ l, (32 : UInt8) ∉ w := by decide +kernel
  rw [List.getD_eq_getElem?_getD] at h
  cases hj : unitWords[j]? with
  | none => rw [hj] at h; cases h
  | some l => rw [hj] at h; exact all l (List.mem_of_getElem? hj) w h

private theorem word_unit {i j : Nat} (hi : i < 5) (hj : j < 5) {w : Bytes} (h : w ∈ unitWords.getD i []) (h' : w ∈ unitWords.getD j []) : i = j := by
  have all : ∀ i < 5, ∀ j < 5, ∀ w ∈ unitWords.getD i [], w ∈ unitWords.getD j [] → i = j := by decide +kernel
  exact all i hi j hj w h h'

private theorem unit_form (u : String) (k : Nat) (hw : unitWords.getD k [] = [ascii u, ascii u ++ ascii "s"]) (hu : ascii (" " ++ u) = 32 :: ascii u) (a : Bytes) (n : Nat) (hn : n ≠ 0) :
    ∃ w ∈ unitWords.getD k [], dtUnit a n u = (a ++ (if a = [] then [] else [32]) ++ dec n) ++ 32 :: w := by
  unfold dtUnit
  rw [if_neg hn, hu, hw]
  by_cases h1 : n > 1
  · exact ⟨ascii u ++ ascii "s", by simp, by rw [if_pos h1]; simp⟩
  · exact ⟨ascii u, by simp, by rw [if_neg h1]; simp⟩

private theorem unit_inj (u : String) (k : Nat) (hk : k < 5) (hw : unitWords.getD k [] = [ascii u, ascii u ++ ascii "s"]) (hu : ascii (" " ++ u) = 32 :: ascii u) {a a' : Bytes} {n n' : Nat}
    (ha : Before k a) (ha' : Before k a') (hs : 32 ∉ a → a = [] ∨ a = [45]) (hs' : 32 ∉ a' → a' = [] ∨ a' = [45]) (h : dtUnit a n u = dtUnit a' n' u) : a = a' ∧ n = n' := by
  have no : ∀ {b b' : Bytes} {m : Nat}, m ≠ 0 → Before k b' → dtUnit b m u ≠ b' := by
    intro b b' m hm hb e
    obtain ⟨w, hwm, hf⟩ := unit_form u k hw hu b m hm
    rw [hf] at e
    rcases hb with hb | ⟨x, v, rfl, j, hj, hv⟩
    · exact hb (by rw [← e]; simp)
    · obtain ⟨-, rfl⟩ := split_last (word_space hwm) (word_space hv) e
      have := word_unit hk (by omega) hwm hv
      omega
  by_cases hn : n = 0
  · by_cases hn' : n' = 0
    · subst hn hn'
      simp only [dtUnit, if_true] at h
      exact ⟨h, rfl⟩
    · subst hn
      rw [dtUnit, if_pos rfl] at h
      exact absurd h.symm (no hn' ha)
  · by_cases hn' : n' = 0
    · subst hn'
      rw [show dtUnit a' 0 u = a' from by rw [dtUnit, if_pos rfl]] at h
      exact absurd h (no hn ha')
    · obtain ⟨w, hwm, hf⟩ := unit_form u k hw hu a n hn
      obtain ⟨w', hwm', hf'⟩ := unit_form u k hw hu a' n' hn'
      rw [hf, hf'] at h
      obtain ⟨e, -⟩ := split_last (word_space hwm) (word_space hwm') h
      by_cases z : a = []
      · by_cases z' : a' = []
        · subst z z'
          simp only [if_true, List.nil_append] at e
          exact ⟨rfl, dec_inj e⟩
        · subst z
          rw [if_neg z', if_pos rfl] at e
          exact absurd (show (32 : UInt8) ∈ dec n by simp only [List.nil_append] at e; rw [e]; simp) (dec_not (by decide))
      · by_cases z' : a' = []
        · subst z'
          rw [if_neg z, if_pos rfl] at e
          exact absurd (show (32 : UInt8) ∈ dec n' by simp only [List.nil_append] at e; rw [← e]; simp) (dec_not (by decide))
        · rw [if_neg z, if_neg z', List.append_assoc, List.append_assoc] at e
          obtain ⟨e1, e2⟩ := split_last (dec_not (by decide)) (dec_not (by decide)) e
          exact ⟨e1, dec_inj e2⟩

private theorem unit_before (u : String) (k : Nat) (hw : unitWords.getD k [] = [ascii u, ascii u ++ ascii "s"]) (hu : ascii (" " ++ u) = 32 :: ascii u) {a : Bytes} (n : Nat)
    (ha : Before k a ∧ (32 ∉ a → a = [] ∨ a = [45])) : Before (k + 1) (dtUnit a n u) ∧ (32 ∉ dtUnit a n u → dtUnit a n u = [] ∨ dtUnit a n u = [45]) := by
  by_cases hn : n = 0
  · subst hn
    rw [dtUnit, if_pos rfl]
    refine ⟨?_, ha.2⟩
    rcases ha.1 with h | ⟨x, w, e, j, hj, hv⟩
    · exact Or.inl h
    · exact Or.inr ⟨x, w, e, j, by omega, hv⟩
  · obtain ⟨w, hwm, hf⟩ := unit_form u k hw hu a n hn
    rw [hf]
    exact ⟨Or.inr ⟨_, w, rfl, k, by omega, hwm⟩, fun h => absurd (by simp) h⟩

/-- **Different lengths of time look different.** -/
theorem C67_length (a b : Int) : showDt a = showDt b ↔ a = b := by
  refine ⟨fun h => ?_, congrArg _⟩
  have w0 : unitWords.getD 0 [] = [ascii "year", ascii "year" ++ ascii "s"] := by decide +kernel
  have w1 : unitWords.getD 1 [] = [ascii "day", ascii "day" ++ ascii "s"] := by decide +kernel
  have w2 : unitWords.getD 2 [] = [ascii "hour", ascii "hour" ++ ascii "s"] := by decide +kernel
  have w3 : unitWords.getD 3 [] = [ascii "minute", ascii "minute" ++ ascii "s"] := by decide +kernel
  have w4 : unitWords.getD 4 [] = [ascii "second", ascii "second" ++ ascii "s"] := by decide +kernel
  have u0 : ascii (" " ++ "year") = 32 :: ascii "year" := by decide +kernel
  have u1 : ascii (" " ++ "day") = 32 :: ascii "day" := by decide +kernel
  have u2 : ascii (" " ++ "hour") = 32 :: ascii "hour" := by decide +kernel
  have u3 : ascii (" " ++ "minute") = 32 :: ascii "minute" := by decide +kernel
  have u4 : ascii (" " ++ "second") = 32 :: ascii "second" := by decide +kernel
  have m : ascii "-" = [45] := by decide +kernel
  have sign : ∀ x : Int, Before 0 (if x < 0 then ascii "-" else []) ∧ (32 ∉ (if x < 0 then ascii "-" else []) → (if x < 0 then ascii "-" else []) = [] ∨ (if x < 0 then ascii "-" else []) = [45]) := by
    intro x
    rw [m]
    split
    · exact ⟨Or.inl (by decide), fun _ => Or.inr rfl⟩
    · exact ⟨Or.inl (by decide), fun _ => Or.inl rfl⟩
  -- what is shown of a length that is not zero ends with a word of a unit
  have some_unit : ∀ x : Int, x ≠ 0 → 32 ∈ showDt x := by
    intro x hx
    unfold showDt
    rw [if_neg hx]
    dsimp only
    have grow : ∀ (u : String) (k : Nat), unitWords.getD k [] = [ascii u, ascii u ++ ascii "s"] → ascii (" " ++ u) = 32 :: ascii u → ∀ (y : Bytes) (n : Nat), (n ≠ 0 ∨ 32 ∈ y) → 32 ∈ dtUnit y n u := by
      intro u k hw hu y n h
      by_cases hn : n = 0
      · rw [dtUnit, if_pos hn]; exact h.resolve_left (by omega)
      · obtain ⟨w, -, hf⟩ := unit_form u k hw hu y n hn
        rw [hf]; simp
    have hn : x.natAbs ≠ 0 := by omega
    by_cases c0 : x.natAbs / 31536000 = 0
    · by_cases c1 : x.natAbs / 86400 % 365 = 0
      · by_cases c2 : x.natAbs / 3600 % 24 = 0
        · by_cases c3 : x.natAbs / 60 % 60 = 0
          · exact grow _ 4 w4 u4 _ _ (Or.inl (by omega))
          · exact grow _ 4 w4 u4 _ _ (Or.inr (grow _ 3 w3 u3 _ _ (Or.inl c3)))
        · exact grow _ 4 w4 u4 _ _ (Or.inr (grow _ 3 w3 u3 _ _ (Or.inr (grow _ 2 w2 u2 _ _ (Or.inl c2)))))
      · exact grow _ 4 w4 u4 _ _ (Or.inr (grow _ 3 w3 u3 _ _ (Or.inr (grow _ 2 w2 u2 _ _ (Or.inr (grow _ 1 w1 u1 _ _ (Or.inl c1)))))))
    · exact grow _ 4 w4 u4 _ _ (Or.inr (grow _ 3 w3 u3 _ _ (Or.inr (grow _ 2 w2 u2 _ _ (Or.inr (grow _ 1 w1 u1 _ _ (Or.inr (grow _ 0 w0 u0 _ _ (Or.inl c0)))))))))
  have now : (32 : UInt8) ∉ showDt 0 := by decide +kernel
  by_cases ha : a = 0
  · by_cases hb : b = 0
    · rw [ha, hb]
    · rw [ha] at h; exact absurd (h ▸ some_unit b hb) now
  · by_cases hb : b = 0
    · rw [hb] at h; exact absurd (h ▸ some_unit a ha) now
    · unfold showDt at h
      rw [if_neg ha, if_neg hb] at h
      dsimp only at h
      have a1 := unit_before _ 0 w0 u0 (a.natAbs / 31536000) (sign a)
      have a2 := unit_before _ 1 w1 u1 (a.natAbs / 86400 % 365) a1
      have a3 := unit_before _ 2 w2 u2 (a.natAbs / 3600 % 24) a2
      have a4 := unit_before _ 3 w3 u3 (a.natAbs / 60 % 60) a3
      have b1 := unit_before _ 0 w0 u0 (b.natAbs / 31536000) (sign b)
      have b2 := unit_before _ 1 w1 u1 (b.natAbs / 86400 % 365) b1
      have b3 := unit_before _ 2 w2 u2 (b.natAbs / 3600 % 24) b2
      have b4 := unit_before _ 3 w3 u3 (b.natAbs / 60 % 60) b3
      obtain ⟨h, e4⟩ := unit_inj _ 4 (by omega) w4 u4 a4.1 b4.1 a4.2 b4.2 h
      obtain ⟨h, e3⟩ := unit_inj _ 3 (by omega) w3 u3 a3.1 b3.1 a3.2 b3.2 h
      obtain ⟨h, e2⟩ := unit_inj _ 2 (by omega) w2 u2 a2.1 b2.1 a2.2 b2.2 h
      obtain ⟨h, e1⟩ := unit_inj _ 1 (by omega) w1 u1 a1.1 b1.1 a1.2 b1.2 h
      obtain ⟨h, e0⟩ := unit_inj _ 0 (by omega) w0 u0 (sign a).1 (sign b).1 (sign a).2 (sign b).2 h
      have hn : a.natAbs = b.natAbs := by omega
      rw [m] at h
      by_cases sa : a < 0
      · by_cases sb : b < 0
        · omega
        · rw [if_pos sa, if_neg sb] at h; cases h
      · by_cases sb : b < 0
        · rw [if_neg sa, if_pos sb] at h; cases h
        · omega

/-- **A length of time is shown in years of 365 days**, days, hours, minutes and seconds, each with its word, and the parts add up. -/
theorem C67_length_parts (n : Nat) (hn : n ≠ 0) : ∃ y d h m s, d < 365 ∧ h < 24 ∧ m < 60 ∧ s < 60 ∧ n = (((y * 365 + d) * 24 + h) * 60 + m) * 60 + s ∧
    showDt n = dtUnit (dtUnit (dtUnit (dtUnit (dtUnit [] y "year") d "day") h "hour") m "minute") s "second" := by
  refine ⟨n / 31536000, n / 86400 % 365, n / 3600 % 24, n / 60 % 60, n % 60, by omega, by omega, by omega, by omega, by omega, ?_⟩
  unfold showDt
  rw [if_neg (by omega), if_neg (by omega)]
  rfl

/-- **Failure: four years of the calendar** are shown as four years and a day. -/
theorem C67_year_fails : Calendar.seconds 2024 1 1 0 0 0 - Calendar.seconds 2020 1 1 0 0 0 = 126230400 ∧ showDt 126230400 = ascii "4 years 1 day" := by decide +kernel

/-! ## Examples -/

example : showTime 1234567890 = ascii "Fri Feb 13 23:31:30 UTC 2009" := by decide +kernel
example : showTime (2 ^ 32 - 1) = ascii "Sun Feb 7 06:28:15 UTC 2106" := by decide +kernel
example : showDate 951782400 = ascii "2000-02-29" := by decide +kernel
example : Valid 2000 2 29 12 0 0 ∧ Calendar.seconds 2000 2 29 12 0 0 = 951825600 := by unfold Valid; decide +kernel
example : showDt (-90061) = ascii "- 1 day 1 hour 1 minute 1 second" := by decide +kernel

end OpenPGP
