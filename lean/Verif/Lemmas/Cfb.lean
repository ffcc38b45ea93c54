import Verif.Spec.Cfb

namespace OpenPGP

theorem xorStrings_length (a b : Bytes) : (xorStrings a b).length = min a.length b.length := by
  simp [xorStrings]

theorem xorStrings_cancel (a b : Bytes) (h : b.length ≤ a.length) : xorStrings a (xorStrings a b) = b := by
  induction a generalizing b with
  | nil => cases b with
    | nil => rfl
    | cons => simp at h
  | cons x a ih =>
    cases b with
    | nil => simp [xorStrings]
    | cons y b =>
      have := ih b (by simpa using h)
      simp only [xorStrings, List.zipWith_cons_cons] at this ⊢
      rw [this, ← UInt8.xor_assoc, UInt8.xor_self, UInt8.zero_xor]

theorem xorStrings_take (a b : Bytes) (n : Nat) : (xorStrings a b).take n = xorStrings (a.take n) (b.take n) := by
  simp [xorStrings, List.take_zipWith]

theorem xorStrings_take_right (a b : Bytes) (n : Nat) (h : a.length ≤ n) :
    xorStrings a (b.take n) = xorStrings a b := by
  induction a generalizing b n with
  | nil => simp [xorStrings]
  | cons x a ih =>
    cases b with
    | nil => simp
    | cons y b =>
      cases n with
      | zero => simp at h
      | succ n =>
        have := ih b n (by simpa using h)
        simp only [xorStrings, List.take_succ_cons, List.zipWith_cons_cons] at this ⊢
        rw [this]

variable {c : Cipher}

theorem encrypt_eq (c : Cipher) (b : Bytes) (h : b.length = c.bs) : c.encrypt b = .ok (c.enc b) := by
  rw [Cipher.encrypt, if_pos h]

theorem encrypt_ok {c : Cipher} {b e : Bytes} (h : c.encrypt b = .ok e) : b.length = c.bs ∧ e = c.enc b := by
  unfold Cipher.encrypt at h
  split at h
  · rename_i hb; exact ⟨hb, (Out.ok.inj h).symm⟩
  · simp at h

theorem cfbE_nil (n : Nat) (iv : Bytes) : cfbE c n iv [] = [] := by
  cases n <;> simp [cfbE]

theorem cfbD_nil (n : Nat) (iv : Bytes) : cfbD c n iv [] = [] := by
  cases n <;> simp [cfbD]

theorem cfbE_succ (n : Nat) (iv p : Bytes) (h : p ≠ []) :
    cfbE c (n + 1) iv p = xorStrings (c.enc iv) (p.take c.bs) ++
      cfbE c n (xorStrings (c.enc iv) (p.take c.bs)) (p.drop c.bs) := by
  simp [cfbE, h, xorStrings]

theorem cfbD_succ (n : Nat) (iv p : Bytes) (h : p ≠ []) :
    cfbD c (n + 1) iv p = xorStrings (c.enc iv) (p.take c.bs) ++ cfbD c n (p.take c.bs) (p.drop c.bs) := by
  simp [cfbD, h, xorStrings]

theorem drop_length_lt {p : Bytes} {b n : Nat} (hb : 2 ≤ b) (hp : p ≠ []) (h : p.length ≤ n + 1) :
    (p.drop b).length ≤ n := by
  have := List.length_pos_iff.mpr hp
  rw [List.length_drop]; omega

theorem cfbE_length (hc : c.Ok) (n : Nat) (iv p : Bytes) (hiv : iv.length = c.bs) (hn : p.length ≤ n) :
    (cfbE c n iv p).length = p.length := by
  induction n generalizing iv p with
  | zero => simp [cfbE]; omega
  | succ n ih =>
    by_cases hp : p = []
    · subst hp; simp [cfbE]
    · rw [cfbE_succ n iv p hp]
      have hl := hc.enc_len iv hiv
      by_cases hs : p.length ≤ c.bs
      · rw [List.drop_eq_nil_of_le hs, cfbE_nil, List.append_nil, xorStrings_length, hl, List.length_take]; omega
      · rw [List.length_append, ih _ _ (by rw [xorStrings_length, hl, List.length_take]; omega)
          (drop_length_lt hc.bs_pos hp hn), xorStrings_length, hl, List.length_take, List.length_drop]; omega

theorem cfbD_length (hc : c.Ok) (n : Nat) (iv p : Bytes) (hiv : iv.length = c.bs) (hn : p.length ≤ n) :
    (cfbD c n iv p).length = p.length := by
  induction n generalizing iv p with
  | zero => simp [cfbD]; omega
  | succ n ih =>
    by_cases hp : p = []
    · subst hp; simp [cfbD]
    · rw [cfbD_succ n iv p hp]
      have hl := hc.enc_len iv hiv
      by_cases hs : p.length ≤ c.bs
      · rw [List.drop_eq_nil_of_le hs, cfbD_nil, List.append_nil, xorStrings_length, hl, List.length_take]; omega
      · rw [List.length_append, ih _ _ (by rw [List.length_take]; omega)
          (drop_length_lt hc.bs_pos hp hn), xorStrings_length, hl, List.length_take, List.length_drop]; omega

theorem cfbD_cfbE (hc : c.Ok) (n : Nat) (iv p : Bytes) (hiv : iv.length = c.bs) (hn : p.length ≤ n) :
    cfbD c n iv (cfbE c n iv p) = p := by
  induction n generalizing iv p with
  | zero => simp [cfbD]; exact List.length_eq_zero_iff.mp (by omega)
  | succ n ih =>
    by_cases hp : p = []
    · subst hp; simp [cfbE, cfbD]
    · have hl := hc.enc_len iv hiv
      have hpos := List.length_pos_iff.mpr hp
      have hbs := hc.bs_pos
      rw [cfbE_succ n iv p hp]
      set b := xorStrings (c.enc iv) (p.take c.bs) with hb
      have hbl : b.length = min c.bs p.length := by rw [hb, xorStrings_length, hl, List.length_take]; omega
      have hx : xorStrings (c.enc iv) b = p.take c.bs :=
        xorStrings_cancel _ _ (by rw [List.length_take, hl]; omega)
      have hne : b ++ cfbE c n b (p.drop c.bs) ≠ [] := by
        intro h
        have := congrArg List.length h
        simp only [List.length_append, hbl, List.length_nil] at this; omega
      rw [cfbD_succ _ _ _ hne]
      by_cases hs : p.length ≤ c.bs
      · rw [List.drop_eq_nil_of_le hs, cfbE_nil, List.append_nil, List.take_of_length_le (by omega),
          List.drop_eq_nil_of_le (by omega), cfbD_nil, List.append_nil, hx, List.take_of_length_le hs]
      · have hbl' : b.length = c.bs := by omega
        rw [List.take_left' hbl', List.drop_left' hbl', hx, ih b _ hbl' (drop_length_lt hbs hp hn),
          List.take_append_drop]

theorem cfbE_cfbD (hc : c.Ok) (n : Nat) (iv p : Bytes) (hiv : iv.length = c.bs) (hn : p.length ≤ n) :
    cfbE c n iv (cfbD c n iv p) = p := by
  induction n generalizing iv p with
  | zero => simp [cfbE]; exact List.length_eq_zero_iff.mp (by omega)
  | succ n ih =>
    by_cases hp : p = []
    · subst hp; simp [cfbE, cfbD]
    · have hl := hc.enc_len iv hiv
      have hpos := List.length_pos_iff.mpr hp
      have hbs := hc.bs_pos
      rw [cfbD_succ n iv p hp]
      set b := xorStrings (c.enc iv) (p.take c.bs) with hb
      have hbl : b.length = min c.bs p.length := by rw [hb, xorStrings_length, hl, List.length_take]; omega
      have hx : xorStrings (c.enc iv) b = p.take c.bs :=
        xorStrings_cancel _ _ (by rw [List.length_take, hl]; omega)
      have hne : b ++ cfbD c n (p.take c.bs) (p.drop c.bs) ≠ [] := by
        intro h
        have := congrArg List.length h
        simp only [List.length_append, hbl, List.length_nil] at this; omega
      rw [cfbE_succ _ _ _ hne]
      by_cases hs : p.length ≤ c.bs
      · rw [List.drop_eq_nil_of_le hs, cfbD_nil, List.append_nil, List.take_of_length_le (l := b) (by omega),
          List.drop_eq_nil_of_le (as := b) (by omega), cfbE_nil, List.append_nil, hx, List.take_of_length_le hs]
      · have hbl' : b.length = c.bs := by omega
        rw [List.take_left' hbl', List.drop_left' hbl', hx,
          ih _ _ (by rw [List.length_take]; omega) (drop_length_lt hbs hp hn), List.take_append_drop]

theorem substr_take {s : Bytes} {pos n : Nat} (h : pos ≤ s.length) : substr s pos n = .ok ((s.drop pos).take n) := by
  rw [substr, if_neg (by omega)]

theorem cfbEncLoop_eq (hc : c.Ok) (data : Bytes) (fuel : Nat) (iv : Bytes) (x : Nat) (out : Bytes)
    (h : (out.length = x ∧ x ≤ data.length ∧ iv.length = c.bs) ∨ (out.length = data.length ∧ data.length ≤ x))
    (hf : data.length - x < fuel) :
    cfbEncLoop c data fuel iv x out = .ok (out ++ cfbE c (fuel - 1) iv (data.drop x)) := by
  induction fuel generalizing iv x out with
  | zero => omega
  | succ fuel ih =>
    have hbs := hc.bs_pos
    rw [cfbEncLoop]
    by_cases hx : x < data.length
    · obtain ⟨h1, h2, h3⟩ := h.resolve_right (by omega)
      have hl := hc.enc_len iv h3
      rw [if_pos (by omega), encrypt_eq c iv h3, Out.ok_bind, substr_take h2, Out.ok_bind]
      have hne : data.drop x ≠ [] := by rw [Ne, List.drop_eq_nil_iff]; omega
      cases fuel with
      | zero => omega
      | succ fuel =>
        simp only [Nat.add_sub_cancel] at ih ⊢
        rw [cfbE_succ fuel iv _ hne, ← List.append_assoc, List.drop_drop]
        refine (ih _ (x + c.bs) _ ?_ (by omega)).trans ?_
        · by_cases hs : x + c.bs ≤ data.length
          · left
            refine ⟨?_, hs, ?_⟩
            · rw [List.length_append, xorStrings_length, hl, List.length_take, List.length_drop]; omega
            · rw [xorStrings_length, hl, List.length_take, List.length_drop]; omega
          · right
            refine ⟨?_, by omega⟩
            rw [List.length_append, xorStrings_length, hl, List.length_take, List.length_drop]; omega
        · rfl
    · rw [if_neg (by rcases h with h | h <;> omega), List.drop_eq_nil_of_le (by omega), cfbE_nil, List.append_nil]

theorem normalCfbEncrypt_eq (hc : c.Ok) (data iv : Bytes) (hiv : iv.length = c.bs) :
    normalCfbEncrypt c data iv = .ok (cfbE c data.length iv data) := by
  rw [normalCfbEncrypt, cfbEncLoop_eq hc data _ iv 0 [] (Or.inl ⟨rfl, by omega, hiv⟩) (by omega)]
  simp

theorem cfbDecLoop_eq (hc : c.Ok) (data : Bytes) (fuel : Nat) (iv : Bytes) (x : Nat) (out : Bytes)
    (h : x < data.length → iv.length = c.bs) (hf : data.length - x < fuel) :
    cfbDecLoop c data fuel iv x out = .ok (out ++ cfbD c (fuel - 1) iv (data.drop x)) := by
  induction fuel generalizing iv x out with
  | zero => omega
  | succ fuel ih =>
    have hbs := hc.bs_pos
    rw [cfbDecLoop]
    by_cases hx : x < data.length
    · have hiv := h hx
      rw [if_pos hx, encrypt_eq c iv hiv, Out.ok_bind, substr_take (by omega), Out.ok_bind]
      have hne : data.drop x ≠ [] := by rw [Ne, List.drop_eq_nil_iff]; omega
      cases fuel with
      | zero => omega
      | succ fuel =>
        simp only [Nat.add_sub_cancel] at ih ⊢
        rw [cfbD_succ fuel iv _ hne, ← List.append_assoc, List.drop_drop]
        exact ih _ (x + c.bs) _ (by intro hlt; rw [List.length_take, List.length_drop]; omega) (by omega)
    · rw [if_neg hx, List.drop_eq_nil_of_le (by omega), cfbD_nil, List.append_nil]

theorem normalCfbDecrypt_eq (hc : c.Ok) (data iv : Bytes) (hiv : iv.length = c.bs) :
    normalCfbDecrypt c data iv = .ok (cfbD c data.length iv data) := by
  rw [normalCfbDecrypt, cfbDecLoop_eq hc data _ iv 0 [] (fun _ => hiv) (by omega)]
  simp

end OpenPGP
