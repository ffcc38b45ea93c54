import Verif.Lemmas.Radix64

/-!
# C02  Radix-64 armor coding is lossless
-/
namespace OpenPGP

/-- `A-Z a-z 0-9`. -/
def Spec.alnum (c : UInt8) : Prop :=
  (65 ≤ c ∧ c ≤ 90) ∨ (97 ≤ c ∧ c ≤ 122) ∨ (48 ≤ c ∧ c ≤ 57)

instance : DecidablePred Spec.alnum := fun c => by unfold Spec.alnum; infer_instance

/-- Usable extra characters: not alphanumeric, not the padding character, distinct. -/
def Spec.radixExtra (c62 c63 : UInt8) : Prop :=
  c62 ≠ c63 ∧ c62 ≠ 61 ∧ c63 ≠ 61 ∧ ¬ Spec.alnum c62 ∧ ¬ Spec.alnum c63

theorem radixChar_alnum (c62 c63 : UInt8) (i : Nat) (h : i < 62) : Spec.alnum (radixChar c62 c63 i) := by
  have key : ∀ i : Fin 62, Spec.alnum (radixChar 0 0 i.val) := by decide
  have e : radixChar c62 c63 i = radixChar 0 0 i := by
    unfold radixChar; simp only [h, if_true]
  rw [e]; exact key ⟨i, h⟩

theorem radixExtra_ok {c62 c63 : UInt8} (h : Spec.radixExtra c62 c63) : radixOk c62 c63 := by
  obtain ⟨h1, h2, h3, h4, h5⟩ := h
  refine ⟨h1, h2, h3, ?_, ?_⟩
  · intro i hi e; exact h4 (e ▸ radixChar_alnum c62 c63 i hi)
  · intro i hi e; exact h5 (e ▸ radixChar_alnum c62 c63 i hi)

theorem radixExtra_bits {c62 c63 : UInt8} (h : Spec.radixExtra c62 c63) (i : Nat) (hi : i < 64) :
    radixBits c62 c63 (radixChar c62 c63 i) = .ok (makebin i 6) ∧ radixChar c62 c63 i ≠ 61 := by
  have h4 := h.2.2.2.1
  have h5 := h.2.2.2.2
  simp only [Spec.alnum, not_or] at h4 h5
  exact radixBits_char c62 c63 (radixExtra_ok h) h4 h5 i hi

theorem radixBitsAll_map {c62 c63 : UInt8} (h : Spec.radixExtra c62 c63) (l : List Nat)
    (hl : ∀ v ∈ l, v < 64) :
    radixBitsAll c62 c63 (l.map (radixChar c62 c63)) = .ok (l.flatMap fun v => makebin v 6) := by
  induction l with
  | nil => rfl
  | cons v l ih =>
    simp only [List.map_cons, radixBitsAll, List.flatMap_cons]
    rw [(radixExtra_bits h v (hl v (by simp))).1, ih (fun w hw => hl w (by simp [hw]))]
    rfl

theorem take_flatMap_bits (l : List Nat) (k : Nat) :
    (l.take k).flatMap (fun v => makebin v 6) = (l.flatMap fun v => makebin v 6).take (6 * k) := by
  induction l generalizing k with
  | nil => simp
  | cons v l ih =>
    cases k with
    | zero => simp
    | succ k =>
      rw [List.take_succ_cons, List.flatMap_cons, List.flatMap_cons, ih,
        show 6 * (k + 1) = (makebin v 6).length + 6 * k by simp; ring, List.take_length_add_append]

theorem bits_zeros (p : Nat) :
    (List.replicate p (0 : UInt8)).flatMap (fun c => makebin c.toNat 8) = List.replicate (8 * p) false := by
  induction p with
  | zero => rfl
  | succ p ih =>
    rw [List.replicate_succ, List.flatMap_cons, ih, show 8 * (p + 1) = 8 + 8 * p by ring,
      ← List.replicate_append_replicate]
    rfl

theorem bits_length (s : Bytes) : (s.flatMap fun c => makebin c.toNat 8).length = 8 * s.length := by
  induction s with
  | nil => rfl
  | cons c s ih => rw [List.flatMap_cons, List.length_append, ih]; simp; ring

/-- Decoding an encoding gives the string back, for every non-empty octet string. -/
theorem C02_radix64_roundtrip (s : Bytes) (hs : s ≠ []) (c62 c63 : UInt8)
    (hc : Spec.radixExtra c62 c63) :
    radix642ascii (ascii2radix64 s c62 c63) c62 c63 = .ok s := by
  have hpos : 0 < s.length := List.length_pos_iff.mpr hs
  set p := (3 - s.length % 3) % 3 with hp
  have hp3 : p < 3 := Nat.mod_lt _ (by omega)
  have hsum : (s.length + p) % 3 = 0 := by omega
  set str := s ++ List.replicate p (0 : UInt8) with hstr
  have hstrl : str.length = s.length + p := by simp [hstr]
  set bin := str.flatMap (fun c => makebin c.toNat 8) with hbin
  have hbinl : bin.length = 8 * (s.length + p) := by rw [hbin, bits_length, hstrl]
  have h6 : bin.length % 6 = 0 := by omega
  set S := sextets bin with hS
  have hSl : S.length = bin.length / 6 := sextets_length bin h6
  have hbits : S.flatMap (fun v => makebin v 6) = bin := sextets_bits bin h6
  have henc : ascii2radix64 s c62 c63
      = (S.take (S.length - p)).map (radixChar c62 c63) ++ List.replicate p 61 := by
    simp only [ascii2radix64, ← hp, ← hstr, ← hbin, ← hS, List.length_map, List.map_take]
  rw [henc]
  have hk : 0 < S.length - p := by omega
  set T := S.take (S.length - p) with hT
  have hTl : T.length = S.length - p := by simp [hT]
  unfold radix642ascii
  rw [if_neg (by simp [hTl]; omega)]
  have hlast : ∃ (m : List Nat) (x : Nat), T = m ++ [x] := by
    rcases List.eq_nil_or_concat T with h | ⟨m, x, h⟩
    · rw [h] at hTl; simp at hTl; omega
    · exact ⟨m, x, by simpa using h⟩
  obtain ⟨m, x, hm⟩ := hlast
  have hlt : ∀ v ∈ T, v < 64 := fun v hv => sextets_lt bin v (List.mem_of_mem_take hv)
  have hx : x < 64 := hlt x (by simp [hm])
  have hstrip : stripPad (T.map (radixChar c62 c63) ++ List.replicate p 61).reverse 0
      = .ok (T.map (radixChar c62 c63), p) := by
    rw [List.reverse_append, List.reverse_replicate, stripPad_replicate, hm]
    simp only [List.map_append, List.map_cons, List.map_nil, List.reverse_append, List.reverse_cons,
      List.reverse_nil, List.nil_append, List.cons_append, stripPad]
    rw [if_neg (radixExtra_bits hc x hx).2]
    simp
  simp only [hstrip, Out.ok_bind]
  rw [radixBitsAll_map hc T hlt]
  simp only [Out.ok_bind, Out.pure_eq, Out.ok.injEq]
  have hfull : T.flatMap (fun v => makebin v 6) ++ List.replicate (p % 256 * 6) false = bin := by
    rw [hT, take_flatMap_bits, hbits, Nat.mod_eq_of_lt (by omega)]
    have hb2 : bin = s.flatMap (fun c => makebin c.toNat 8) ++ List.replicate (8 * p) false := by
      rw [hbin, hstr, List.flatMap_append, bits_zeros]
    have hsplit : 6 * (S.length - p) = bin.length - p * 6 := by omega
    have hdrop : bin.drop (bin.length - p * 6) = List.replicate (p * 6) false := by
      rw [hb2]
      simp only [List.length_append, List.length_replicate]
      rw [List.drop_append]
      rw [List.drop_eq_nil_of_le (by omega)]
      simp only [List.nil_append, List.drop_replicate]
      congr 1
      omega
    rw [hsplit, ← hdrop, List.take_append_drop]
  rw [hfull, hbin, octets_bits, hstrl, Nat.mod_eq_of_lt (by omega), subSz, if_pos (by omega), hstr]
  simp

/-- Default alphabet (`+`, `/`). -/
theorem C02_radix64_roundtrip_default (s : Bytes) (hs : s ≠ []) :
    radix642ascii (ascii2radix64 s) = .ok s :=
  C02_radix64_roundtrip s hs 43 47 (by unfold Spec.radixExtra; decide)

example : ascii2radix64 [77, 97] = [84, 87, 69, 61] := by decide
example : radix642ascii (ascii2radix64 [77, 97]) = .ok [77, 97] := by decide
example : radix642ascii (ascii2radix64 [0xff, 0, 0x80, 1]) = .ok [0xff, 0, 0x80, 1] := by decide

/-- Four characters per started group of three octets. -/
theorem C02_radix64_length (s : Bytes) (c62 c63 : UInt8) :
    (ascii2radix64 s c62 c63).length = 4 * ((s.length + 2) / 3) := by
  have h6 : ((s ++ List.replicate ((3 - s.length % 3) % 3) (0 : UInt8)).flatMap
      (fun c => makebin c.toNat 8)).length % 6 = 0 := by
    rw [bits_length]; simp; omega
  simp only [ascii2radix64, List.length_append, List.length_take, List.length_map,
    List.length_replicate, sextets_length _ h6, bits_length]
  omega

/-- Only alphabet characters, then at most two `=`. -/
theorem C02_radix64_alphabet (s : Bytes) (c62 c63 : UInt8) :
    ∃ body pad, ascii2radix64 s c62 c63 = body ++ List.replicate pad 61 ∧ pad ≤ 2 ∧
      ∀ c ∈ body, Spec.alnum c ∨ c = c62 ∨ c = c63 := by
  refine ⟨_, _, rfl, by omega, ?_⟩
  intro c hc
  have hc := List.mem_of_mem_take hc
  rw [List.mem_map] at hc
  obtain ⟨v, hv, rfl⟩ := hc
  by_cases h : v < 62
  · exact Or.inl (radixChar_alnum c62 c63 v h)
  · right
    unfold radixChar
    simp only [show ¬ v < 26 by omega, show ¬ v < 52 by omega, h, if_false]
    split <;> simp

/-- Independent description of one 3-octet group: the four characters are the base-64 digits of
the 24-bit number. -/
theorem C02_radix64_group (a b c : UInt8) (s : Bytes) (c62 c63 : UInt8) :
    let n := a.toNat * 65536 + b.toNat * 256 + c.toNat
    ascii2radix64 (a :: b :: c :: s) c62 c63 =
      [radixChar c62 c63 (n / 262144), radixChar c62 c63 (n / 4096 % 64),
       radixChar c62 c63 (n / 64 % 64), radixChar c62 c63 (n % 64)] ++ ascii2radix64 s c62 c63 := by
  intro n
  have hpad : (3 - (a :: b :: c :: s).length % 3) % 3 = (3 - s.length % 3) % 3 := by
    simp; omega
  have hbits : makebin a.toNat 8 ++ (makebin b.toNat 8 ++ makebin c.toNat 8)
      = makebin (n / 262144) 6 ++ (makebin (n / 4096 % 64) 6 ++ (makebin (n / 64 % 64) 6 ++ makebin (n % 64) 6)) := by
    have e1 : ∀ l m : List Bool, l.length = m.length → tointBits l = tointBits m → l = m := by
      intro l m h1 h2
      rw [← makebin_tointBits l, ← makebin_tointBits m, h1, h2]
    apply e1
    · simp
    · have := a.toNat_lt; have := b.toNat_lt; have := c.toNat_lt
      simp only [tointBits_append, tointBits_makebin, List.length_append, makebin_length]
      norm_num
      simp only [n]
      omega
  have hsx : ∀ (v : Nat) (l : List Bool), v < 64 → sextets (makebin v 6 ++ l) = v :: sextets l := by
    intro v l hv
    have h1 := makebin_length v 6
    have h2 := tointBits_makebin v 6
    generalize makebin v 6 = m at h1 h2
    match m, h1 with
    | [x1, x2, x3, x4, x5, x6], _ =>
      simp only [List.cons_append, List.nil_append, sextets]
      rw [h2, Nat.mod_eq_of_lt (by omega)]
  simp only [ascii2radix64, hpad, List.cons_append, List.flatMap_cons]
  rw [← List.append_assoc (makebin b.toNat 8), ← List.append_assoc (makebin a.toNat 8), hbits]
  simp only [List.append_assoc]
  have hn : n < 16777216 := by
    have := a.toNat_lt; have := b.toNat_lt; have := c.toNat_lt
    simp only [n]; omega
  rw [hsx _ _ (by omega), hsx _ _ (by omega), hsx _ _ (by omega), hsx _ _ (by omega)]
  have h6 : ((s ++ List.replicate ((3 - s.length % 3) % 3) (0 : UInt8)).flatMap
      (fun c => makebin c.toNat 8)).length % 6 = 0 := by
    rw [bits_length]; simp; omega
  have hlen := sextets_length _ h6
  rw [bits_length] at hlen
  simp only [List.length_append, List.length_replicate] at hlen
  simp only [List.map_cons, List.length_cons, List.length_map, List.nil_append]
  generalize hq : sextets (List.flatMap (fun c => makebin c.toNat 8)
    (s ++ List.replicate ((3 - s.length % 3) % 3) 0)) = q at *
  by_cases hs : s = []
  · subst hs; simp at hq hlen; subst hlen; simp
  · have : 0 < s.length := List.length_pos_iff.mpr hs
    rw [show q.length + 1 + 1 + 1 + 1 - (3 - s.length % 3) % 3
      = (q.length - (3 - s.length % 3) % 3) + 1 + 1 + 1 + 1 by omega]
    simp only [List.take_succ_cons, List.cons_append]

/-- The decoder returns the empty string when the length is no multiple of four. -/
theorem C02_radix64_bad_length (s : Bytes) (c62 c63 : UInt8) (h : s.length % 4 ≠ 0) :
    radix642ascii s c62 c63 = .ok [] := by
  simp [radix642ascii, h]

/-- The full round trip claim includes the empty string; the decoder reads before the start of an
empty string, so it fails there. -/
theorem C02_radix64_empty_ub : radix642ascii (ascii2radix64 []) = .ub := by decide

end OpenPGP
