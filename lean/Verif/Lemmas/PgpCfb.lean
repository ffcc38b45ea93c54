import Verif.Lemmas.Cfb

namespace OpenPGP
variable {c : Cipher}

/-- The bound on the recursion does not matter once it is large enough. -/
theorem cfbE_fuel (hc : c.Ok) (n m : Nat) (iv p : Bytes) (hn : p.length ≤ n) (hm : p.length ≤ m) :
    cfbE c n iv p = cfbE c m iv p := by
  induction n generalizing iv p m with
  | zero =>
    obtain rfl : p = [] := List.length_eq_zero_iff.mp (by omega)
    rw [cfbE_nil, cfbE_nil]
  | succ n ih =>
    by_cases hp : p = []
    · subst hp; rw [cfbE_nil, cfbE_nil]
    · have hpos := List.length_pos_iff.mpr hp
      cases m with
      | zero => omega
      | succ m =>
        rw [cfbE_succ _ _ _ hp, cfbE_succ _ _ _ hp]
        rw [ih m _ _ (drop_length_lt hc.bs_pos hp hn) (drop_length_lt hc.bs_pos hp hm)]

theorem cfbD_fuel (hc : c.Ok) (n m : Nat) (iv p : Bytes) (hn : p.length ≤ n) (hm : p.length ≤ m) :
    cfbD c n iv p = cfbD c m iv p := by
  induction n generalizing iv p m with
  | zero =>
    obtain rfl : p = [] := List.length_eq_zero_iff.mp (by omega)
    rw [cfbD_nil, cfbD_nil]
  | succ n ih =>
    by_cases hp : p = []
    · subst hp; rw [cfbD_nil, cfbD_nil]
    · have hpos := List.length_pos_iff.mpr hp
      cases m with
      | zero => omega
      | succ m =>
        rw [cfbD_succ _ _ _ hp, cfbD_succ _ _ _ hp]
        rw [ih m _ _ (drop_length_lt hc.bs_pos hp hn) (drop_length_lt hc.bs_pos hp hm)]

/-- CFB with the recursion bound set to the length. -/
def cfbEnc (c : Cipher) (iv p : Bytes) : Bytes := cfbE c p.length iv p
def cfbDec (c : Cipher) (iv p : Bytes) : Bytes := cfbD c p.length iv p

@[simp] theorem cfbEnc_nil (iv : Bytes) : cfbEnc c iv [] = [] := rfl
@[simp] theorem cfbDec_nil (iv : Bytes) : cfbDec c iv [] = [] := rfl

theorem cfbEnc_step (hc : c.Ok) (iv p : Bytes) :
    cfbEnc c iv p = xorStrings (c.enc iv) (p.take c.bs) ++
      cfbEnc c (xorStrings (c.enc iv) (p.take c.bs)) (p.drop c.bs) := by
  by_cases hp : p = []
  · subst hp; simp [xorStrings]
  · have hpos := List.length_pos_iff.mpr hp
    unfold cfbEnc
    obtain ⟨n, hn⟩ : ∃ n, p.length = n + 1 := ⟨p.length - 1, by omega⟩
    rw [hn, cfbE_succ n iv p hp, cfbE_fuel hc n (p.drop c.bs).length _ _
      (drop_length_lt hc.bs_pos hp (by omega)) le_rfl]

theorem cfbDec_step (hc : c.Ok) (iv p : Bytes) :
    cfbDec c iv p = xorStrings (c.enc iv) (p.take c.bs) ++ cfbDec c (p.take c.bs) (p.drop c.bs) := by
  by_cases hp : p = []
  · subst hp; simp [xorStrings]
  · have hpos := List.length_pos_iff.mpr hp
    unfold cfbDec
    obtain ⟨n, hn⟩ : ∃ n, p.length = n + 1 := ⟨p.length - 1, by omega⟩
    rw [hn, cfbD_succ n iv p hp, cfbD_fuel hc n (p.drop c.bs).length _ _
      (drop_length_lt hc.bs_pos hp (by omega)) le_rfl]

theorem cfbEnc_length (hc : c.Ok) (iv p : Bytes) (hiv : iv.length = c.bs) : (cfbEnc c iv p).length = p.length :=
  cfbE_length hc _ iv p hiv le_rfl

theorem cfbDec_length (hc : c.Ok) (iv p : Bytes) (hiv : iv.length = c.bs) : (cfbDec c iv p).length = p.length :=
  cfbD_length hc _ iv p hiv le_rfl

theorem cfbDec_cfbEnc (hc : c.Ok) (iv p : Bytes) (hiv : iv.length = c.bs) : cfbDec c iv (cfbEnc c iv p) = p := by
  unfold cfbDec
  rw [cfbEnc_length hc iv p hiv]
  exact cfbD_cfbE hc _ iv p hiv le_rfl

theorem pgpEncLoop_eq (hc : c.Ok) (data : Bytes) (fuel x : Nat) (C : Bytes)
    (h : C.length = x + 2 + c.bs ∨ data.length ≤ x) (hf : data.length - x < fuel) :
    pgpEncLoop c data fuel x C = .ok (C ++ cfbEnc c (C.drop (x + 2)) (data.drop x)) := by
  induction fuel generalizing x C with
  | zero => omega
  | succ fuel ih =>
    have hbs := hc.bs_pos
    rw [pgpEncLoop]
    by_cases hx : x < data.length
    · have hC := h.resolve_right (by omega)
      have hfr : (C.drop (x + 2)).length = c.bs := by rw [List.length_drop]; omega
      have hl := hc.enc_len _ hfr
      rw [if_pos hx, substr_take (by omega), Out.ok_bind, List.take_of_length_le (by omega),
        encrypt_eq c _ hfr, Out.ok_bind, substr_take (by omega), Out.ok_bind]
      rw [cfbEnc_step hc (C.drop (x + 2)) (data.drop x), List.drop_drop, ← List.append_assoc]
      set b := xorStrings (c.enc (C.drop (x + 2))) ((data.drop x).take c.bs) with hb
      have hbl : b.length = min c.bs (data.length - x) := by
        rw [hb, xorStrings_length, hl, List.length_take, List.length_drop]; omega
      rw [ih (x + c.bs) (C ++ b) (by rw [List.length_append]; omega) (by omega)]
      by_cases hs : x + c.bs < data.length
      · rw [List.drop_append_of_le_length (by omega)] 
        rw [show C.drop (x + c.bs + 2) = [] from List.drop_eq_nil_of_le (by omega), List.nil_append]
      · rw [List.drop_eq_nil_of_le (as := data) (by omega)]; simp
    · rw [if_neg hx, List.drop_eq_nil_of_le (as := data) (by omega), cfbEnc_nil, List.append_nil]

theorem pgpDecLoop_eq (hc : c.Ok) (data : Bytes) (fuel x : Nat) (fre P : Bytes)
    (hx : x ≤ data.length) (hf : data.length - x < fuel) :
    ∃ P' fre' x', pgpDecLoop c data fuel x fre P = .ok (P', fre', x') ∧ x' ≤ data.length ∧
      P' ++ xorStrings fre' ((data.drop x').take c.bs) =
        P ++ (xorStrings fre ((data.drop x).take c.bs) ++
          cfbDec c ((data.drop x).take c.bs) (data.drop (x + c.bs))) := by
  induction fuel generalizing x fre P with
  | zero => omega
  | succ fuel ih =>
    have hbs := hc.bs_pos
    rw [pgpDecLoop]
    by_cases hlt : x + c.bs < data.length
    · have hs : ((data.drop x).take c.bs).length = c.bs := by rw [List.length_take, List.length_drop]; omega
      rw [if_pos hlt, substr_take hx, Out.ok_bind, encrypt_eq c _ hs, Out.ok_bind]
      obtain ⟨P', fre', x', h1, h2, h3⟩ := ih (x + c.bs) (c.enc ((data.drop x).take c.bs))
        (P ++ xorStrings fre ((data.drop x).take c.bs)) (by omega) (by omega)
      refine ⟨P', fre', x', h1, h2, ?_⟩
      rw [h3, cfbDec_step hc ((data.drop x).take c.bs) (data.drop (x + c.bs)), List.drop_drop]
      simp
    · rw [if_neg hlt]
      exact ⟨P, fre, x, rfl, hx, by rw [List.drop_eq_nil_of_le (as := data) (i := x + c.bs) (by omega)]; simp⟩

end OpenPGP
