import Verif.Model.Time
import Verif.Spec.Calendar
import Verif.Spec.Shown
import Verif.Lemmas.Shown

/-!
# Times in the calendar
-/
namespace OpenPGP
open Calendar

theorem leap_iff (y : Nat) : leap y = true ↔ IsLeap y := by
  simp only [leap, IsLeap, Bool.and_eq_true, Bool.or_eq_true, beq_iff_eq, bne_iff_ne, Nat.dvd_iff_mod_eq_zero]
  omega

theorem yearDays_sum (y : Nat) : yearDays y = (months y).sum := by
  unfold yearDays months
  by_cases h : IsLeap y
  · rw [if_pos ((leap_iff y).mpr h), if_pos h]; rfl
  · rw [if_neg (fun e => h ((leap_iff y).mp e)), if_neg h]; rfl

theorem monthDays_eq (y m : Nat) (hm : m < 12) : monthDays y m = (months y).getD m 0 := by
  have : m = 0 ∨ m = 1 ∨ m = 2 ∨ m = 3 ∨ m = 4 ∨ m = 5 ∨ m = 6 ∨ m = 7 ∨ m = 8 ∨ m = 9 ∨ m = 10 ∨ m = 11 := by omega
  by_cases h : IsLeap y
  · have hl := (leap_iff y).mpr h
    rcases this with rfl | rfl | rfl | rfl | rfl | rfl | rfl | rfl | rfl | rfl | rfl | rfl <;> simp [monthDays, months, h, hl]
  · have hl : leap y = false := by simpa using fun e => h ((leap_iff y).mp e)
    rcases this with rfl | rfl | rfl | rfl | rfl | rfl | rfl | rfl | rfl | rfl | rfl | rfl <;> simp [monthDays, months, h, hl]

theorem yearDays_pos (y : Nat) : 365 ≤ yearDays y := by unfold yearDays; split <;> omega

theorem yearOf_spec (f : Nat) : ∀ (y d : Nat), 1970 ≤ y → d / 365 ≤ f →
    1970 ≤ (yearOf f y d).1 ∧ daysTo y + d = daysTo (yearOf f y d).1 + (yearOf f y d).2 ∧ (yearOf f y d).2 < yearDays (yearOf f y d).1 := by
  induction f with
  | zero =>
    intro y d hy hf
    have := yearDays_pos y
    exact ⟨hy, rfl, by simp only [yearOf]; omega⟩
  | succ f ih =>
    intro y d hy hf
    have hp := yearDays_pos y
    rw [yearOf]
    split
    · exact ⟨hy, rfl, by assumption⟩
    · rename_i hd
      obtain ⟨h1, h2, h3⟩ := ih (y + 1) (d - yearDays y) (by omega) (by omega)
      refine ⟨h1, ?_, h3⟩
      rw [← h2, daysTo, if_neg (by omega), ← yearDays_sum]
      omega

theorem monthOf_spec (y : Nat) (f : Nat) : ∀ (m d : Nat), m + f = 11 → ((months y).take m).sum + d < (months y).sum →
    (monthOf y f m d).1 < 12 ∧ ((months y).take m).sum + d = ((months y).take (monthOf y f m d).1).sum + (monthOf y f m d).2 ∧ (monthOf y f m d).2 < (months y).getD (monthOf y f m d).1 0 := by
  have step : ∀ m, m < 12 → ((months y).take (m + 1)).sum = ((months y).take m).sum + (months y).getD m 0 := by
    intro m hm
    have hl : (months y).length = 12 := rfl
    rw [List.take_add_one, List.sum_append, List.getD_eq_getElem?_getD]
    congr 1
    rw [List.getElem?_eq_getElem (by omega)]
    simp
  have hsum : (months y).sum = ((months y).take 12).sum := rfl
  induction f with
  | zero =>
    intro m d hm hd
    obtain rfl : m = 11 := by omega
    refine ⟨by simp [monthOf], rfl, ?_⟩
    rw [hsum, step 11 (by omega)] at hd
    simp only [monthOf]
    omega
  | succ f ih =>
    intro m d hm hd
    have hmd := monthDays_eq y m (by omega)
    rw [monthOf]
    split
    · rename_i h
      exact ⟨by omega, rfl, by rw [← hmd]; exact h⟩
    · rename_i h
      have hs := step m (by omega)
      obtain ⟨h1, h2, h3⟩ := ih (m + 1) (d - monthDays y m) (by omega) (by omega)
      exact ⟨h1, by omega, h3⟩

/-- `gmtime` is the calendar. -/
theorem gmtime_spec (t : Nat) : Valid (gmtime t).year ((gmtime t).mon + 1) (gmtime t).mday (gmtime t).hour (gmtime t).min (gmtime t).sec ∧
    Calendar.seconds (gmtime t).year ((gmtime t).mon + 1) (gmtime t).mday (gmtime t).hour (gmtime t).min (gmtime t).sec = t := by
  have h0 : daysTo 1970 = 0 := rfl
  obtain ⟨y1, y2, y3⟩ := yearOf_spec (t / 86400 / 365) 1970 (t / 86400) (le_refl _) (le_refl _)
  obtain ⟨m1, m2, m3⟩ := monthOf_spec (yearOf (t / 86400 / 365) 1970 (t / 86400)).1 11 0 (yearOf (t / 86400 / 365) 1970 (t / 86400)).2 rfl (by
    rw [← yearDays_sum]; simpa using y3)
  simp only [gmtime, Valid, Calendar.seconds, Nat.add_sub_cancel]
  refine ⟨⟨y1, by omega, by omega, by omega, by omega, by omega, by omega, by omega⟩, ?_⟩
  have e : t / 86400 = daysTo (yearOf (t / 86400 / 365) 1970 (t / 86400)).1 +
      (List.take (monthOf (yearOf (t / 86400 / 365) 1970 (t / 86400)).1 11 0 (yearOf (t / 86400 / 365) 1970 (t / 86400)).2).1
        (months (yearOf (t / 86400 / 365) 1970 (t / 86400)).1)).sum +
      (monthOf (yearOf (t / 86400 / 365) 1970 (t / 86400)).1 11 0 (yearOf (t / 86400 / 365) 1970 (t / 86400)).2).2 := by
    simp only [List.take_zero, List.sum_nil, Nat.zero_add] at m2
    omega
  rw [← e]
  omega

/-! ## One date for each moment -/

theorem daysTo_step {y : Nat} (h : 1970 ≤ y) : daysTo (y + 1) = daysTo y + (months y).sum := by rw [daysTo, if_neg (by omega)]

theorem daysTo_mono {y y' : Nat} (h : 1970 ≤ y) (hy : y ≤ y') : daysTo y ≤ daysTo y' := by
  induction y' with
  | zero => omega
  | succ n ih =>
    rcases Nat.lt_or_ge y (n + 1) with hl | hl
    · have := ih (by omega)
      rw [daysTo_step (by omega)]
      omega
    · obtain rfl : y = n + 1 := by omega
      exact le_refl _

theorem months_take (y m : Nat) (hm : m < 12) : ((months y).take (m + 1)).sum = ((months y).take m).sum + (months y).getD m 0 := by
  have hl : (months y).length = 12 := rfl
  rw [List.take_add_one, List.sum_append, List.getD_eq_getElem?_getD]
  congr 1
  rw [List.getElem?_eq_getElem (by omega)]
  simp

theorem months_mono {y m m' : Nat} (h : m ≤ m') (hm : m' ≤ 12) : ((months y).take m).sum ≤ ((months y).take m').sum := by
  induction m' with
  | zero => obtain rfl : m = 0 := by omega
            exact le_refl _
  | succ n ih =>
    rcases Nat.lt_or_ge m (n + 1) with hl | hl
    · have := ih (by omega) (by omega)
      rw [months_take y n (by omega)]
      omega
    · obtain rfl : m = n + 1 := by omega
      exact le_refl _

/-- Two dates are at the same moment only if they are the same. -/
theorem seconds_inj {y m d h i s y' m' d' h' i' s' : Nat} (v : Valid y m d h i s) (v' : Valid y' m' d' h' i' s') (e : Calendar.seconds y m d h i s = Calendar.seconds y' m' d' h' i' s') :
    y = y' ∧ m = m' ∧ d = d' ∧ h = h' ∧ i = i' ∧ s = s' := by
  obtain ⟨a1, a2, a3, a4, a5, a6, a7, a8⟩ := v
  obtain ⟨b1, b2, b3, b4, b5, b6, b7, b8⟩ := v'
  unfold Calendar.seconds at e
  have eh : h = h' ∧ i = i' ∧ s = s' ∧ daysTo y + ((months y).take (m - 1)).sum + (d - 1) = daysTo y' + ((months y').take (m' - 1)).sum + (d' - 1) := by omega
  obtain ⟨e1, e2, e3, e4⟩ := eh
  have fit : ∀ y m d, 1 ≤ m → m ≤ 12 → 1 ≤ d → d ≤ (months y).getD (m - 1) 0 → ((months y).take (m - 1)).sum + (d - 1) < ((months y).take m).sum := by
    intro y m d h1 h2 h3 h4
    have := months_take y (m - 1) (by omega)
    rw [Nat.sub_add_cancel h1] at this
    omega
  have f1 := fit y m d a2 a3 a4 a5
  have f2 := fit y' m' d' b2 b3 b4 b5
  have g1 := months_mono (y := y) a3 (le_refl 12)
  have g2 := months_mono (y := y') b3 (le_refl 12)
  have w1 : ((months y).take 12).sum = (months y).sum := rfl
  have w2 : ((months y').take 12).sum = (months y').sum := rfl
  have s1 := daysTo_step a1
  have s2 := daysTo_step b1
  have ey : y = y' := by
    rcases Nat.lt_trichotomy y y' with hl | hl | hl
    · have := daysTo_mono (y := y + 1) (y' := y') (by omega) hl
      omega
    · exact hl
    · have := daysTo_mono (y := y' + 1) (y' := y) (by omega) hl
      omega
  subst ey
  have em : m = m' := by
    rcases Nat.lt_trichotomy m m' with hl | hl | hl
    · have := months_mono (y := y) (m := m) (m' := m' - 1) (by omega) (by omega)
      omega
    · exact hl
    · have := months_mono (y := y) (m := m') (m' := m - 1) (by omega) (by omega)
      omega
  subst em
  exact ⟨rfl, rfl, by omega, e1, e2, e3⟩

/-! ## The texts -/

theorem dec2_inj {a b : Nat} (ha : a < 60) (hb : b < 60) (h : dec2 a = dec2 b) : a = b := by
  have : ∀ a < 60, ∀ b < 60, dec2 a = dec2 b → a = b := by decide +kernel
  exact this a ha b hb h

theorem dec2_not {n : Nat} {c : UInt8} (h : c < 48 ∨ c = 58) : c ∉ dec2 n := by
  have key : c ∉ dec n := by
    intro hm
    obtain ⟨h1, h2⟩ := dec_digit hm
    rcases h with h | h
    · exact absurd h1 (by rw [UInt8.not_le]; exact h)
    · subst h; exact absurd h2 (by decide)
  unfold dec2
  split
  · intro hm
    rcases List.mem_cons.mp hm with rfl | hm
    · rcases h with h | h <;> revert h <;> decide
    · exact key hm
  · exact key

theorem name_not (l : List String) (c : UInt8) (h : ∀ s ∈ l, c ∉ ascii s) (i : Nat) : c ∉ ascii (l.getD i "") := by
  rw [List.getD_eq_getElem?_getD]
  cases hi : l[i]? with
  | none => intro h; cases h
  | some s => exact h s (List.mem_of_getElem? hi)

theorem showTime_fields {t t' : Nat} (h : showTime t = showTime t') : (gmtime t).year = (gmtime t').year ∧ (gmtime t).mon = (gmtime t').mon ∧ (gmtime t).mday = (gmtime t').mday ∧
    (gmtime t).hour = (gmtime t').hour ∧ (gmtime t).min = (gmtime t').min ∧ (gmtime t).sec = (gmtime t').sec := by
  obtain ⟨v, -⟩ := gmtime_spec t
  obtain ⟨v', -⟩ := gmtime_spec t'
  obtain ⟨-, -, m1, -, -, h1, i1, s1⟩ := v
  obtain ⟨-, -, m2, -, -, h2, i2, s2⟩ := v'
  have sp : ascii " " = [32] := by decide +kernel
  have co : ascii ":" = [58] := by decide +kernel
  have utc : ascii " UTC " = 32 :: [85, 84, 67, 32] := by decide +kernel
  unfold showTime at h
  simp only [sp, co, utc, List.append_assoc, List.cons_append, List.nil_append] at h
  have n32 : ∀ i, (32 : UInt8) ∉ ascii (weekNames.getD i "") := name_not _ _ (by decide +kernel)
  have n33 : ∀ i, (32 : UInt8) ∉ ascii (monthNames.getD i "") := name_not _ _ (by decide +kernel)
  obtain ⟨-, h⟩ := first_split (n32 _) (n32 _) h
  obtain ⟨e1, h⟩ := first_split (n33 _) (n33 _) h
  obtain ⟨e2, h⟩ := first_split (dec_not (by decide)) (dec_not (by decide)) h
  obtain ⟨e3, h⟩ := first_split (dec2_not (by decide)) (dec2_not (by decide)) h
  obtain ⟨e4, h⟩ := first_split (dec2_not (by decide)) (dec2_not (by decide)) h
  obtain ⟨e5, h⟩ := first_split (dec2_not (by decide)) (dec2_not (by decide)) h
  have e6 : dec (gmtime t).year = dec (gmtime t').year := by simpa using h
  have em : ∀ a < 12, ∀ b < 12, ascii (monthNames.getD a "") = ascii (monthNames.getD b "") → a = b := by decide +kernel
  exact ⟨dec_inj e6, em _ (by omega) _ (by omega) e1, dec_inj e2, dec2_inj (by omega) (by omega) e3, dec2_inj i1 i2 e4, dec2_inj s1 s2 e5⟩

theorem showTime_inj {t t' : Nat} (h : showTime t = showTime t') : t = t' := by
  obtain ⟨h1, h2, h3, h4, h5, h6⟩ := showTime_fields h
  rw [← (gmtime_spec t).2, ← (gmtime_spec t').2, h1, h2, h3, h4, h5, h6]

theorem showTime_times : Shown.Times showTime where
  inj _ _ _ _ := showTime_inj
  never t h := by
    have : (32 : UInt8) ∈ showTime t := by
      have sp : ascii " " = [32] := by decide +kernel
      unfold showTime
      simp only [sp]
      simp
    rw [h] at this
    revert this
    decide +kernel
  line t := by
    have sp : (10 : UInt8) ∉ ascii " " := by decide +kernel
    have co : (10 : UInt8) ∉ ascii ":" := by decide +kernel
    have utc : (10 : UInt8) ∉ ascii " UTC " := by decide +kernel
    have n1 := name_not weekNames 10 (by decide +kernel) (gmtime t).wday
    have n2 := name_not monthNames 10 (by decide +kernel) (gmtime t).mon
    unfold showTime
    simp only [List.mem_append, not_or]
    exact ⟨⟨⟨⟨⟨⟨⟨⟨⟨⟨⟨⟨n1, sp⟩, n2⟩, sp⟩, dec_not (by decide)⟩, sp⟩, dec2_not (by decide)⟩, co⟩, dec2_not (by decide)⟩, co⟩, dec2_not (by decide)⟩, utc⟩, dec_not (by decide)⟩

end OpenPGP
