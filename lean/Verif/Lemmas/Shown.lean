import Verif.Model.Show
import Verif.Lemmas.Mpi
import Mathlib.Data.Nat.Digits.Defs

/-!
# Numbers and octets as text
-/
namespace OpenPGP

theorem split_last {x : UInt8} {a b u v : Bytes} (hu : x ∉ u) (hv : x ∉ v) (h : a ++ x :: u = b ++ x :: v) : a = b ∧ u = v := by
  have hr := congrArg List.reverse h
  simp only [List.reverse_append, List.reverse_cons, List.append_assoc, List.singleton_append] at hr
  have key : ∀ (u v a b : Bytes), x ∉ u → x ∉ v → u ++ x :: a = v ++ x :: b → u = v ∧ a = b := by
    intro u
    induction u with
    | nil =>
      intro v a b _ hv h
      cases v with
      | nil => exact ⟨rfl, by simpa using h⟩
      | cons y v => simp at h; exact absurd (by simp [h.1]) hv
    | cons y u ih =>
      intro v a b hu hv h
      cases v with
      | nil => simp at h; exact absurd (by simp [h.1]) hu
      | cons z v =>
        simp only [List.cons_append, List.cons.injEq] at h
        obtain ⟨h1, h2⟩ := ih v a b (fun h => hu (by simp [h])) (fun h => hv (by simp [h])) h.2
        exact ⟨by rw [h.1, h1], h2⟩
  obtain ⟨h1, h2⟩ := key _ _ _ _ (by simpa using hu) (by simpa using hv) hr
  exact ⟨List.reverse_inj.mp h2, List.reverse_inj.mp h1⟩

theorem first_split {x : UInt8} {u v a b : Bytes} (hu : x ∉ u) (hv : x ∉ v) (h : u ++ x :: a = v ++ x :: b) : u = v ∧ a = b := by
  induction u generalizing v with
  | nil => cases v with
    | nil => exact ⟨rfl, by simpa using h⟩
    | cons z v => simp at h; exact absurd (by simp [h.1]) hv
  | cons z u ih => cases v with
    | nil => simp at h; exact absurd (by simp [h.1]) hu
    | cons z' v =>
      simp only [List.cons_append, List.cons.injEq] at h
      obtain ⟨h1, h2⟩ := ih (fun h => hu (by simp [h])) (fun h => hv (by simp [h])) h.2
      exact ⟨by rw [h.1, h1], h2⟩

/-- What stands between a label that ends in `x` and a known end. -/
theorem tail_eq {x : UInt8} {a b lab u v : Bytes} (hp : lab.getLast? = some x) (hu : x ∉ u) (hv : x ∉ v) (suf : Bytes) (h : a ++ lab ++ u ++ suf = b ++ lab ++ v ++ suf) : a = b ∧ u = v := by
  obtain ⟨l, rfl⟩ := List.getLast?_eq_some_iff.mp hp
  have h := List.append_cancel_right h
  obtain ⟨h1, h2⟩ := split_last (a := a ++ l) (b := b ++ l) hu hv (by simpa using h)
  exact ⟨List.append_cancel_right h1, h2⟩

theorem dec_digit {n : Nat} {c : UInt8} (h : c ∈ dec n) : 48 ≤ c ∧ c ≤ 57 := by
  obtain ⟨ch, hm, rfl⟩ := List.mem_map.mp h
  have := Nat.isDigit_of_mem_toDigits (by omega) (by omega) hm
  simp only [Char.isDigit, Bool.and_eq_true, decide_eq_true_eq] at this
  have h1 : 48 ≤ ch.toNat := by exact_mod_cast UInt32.le_iff_toNat_le.mp this.1
  have h2 : ch.toNat ≤ 57 := by exact_mod_cast UInt32.le_iff_toNat_le.mp this.2
  constructor
  · rw [UInt8.le_iff_toNat_le, UInt8.toNat_ofNat']; simp; omega
  · rw [UInt8.le_iff_toNat_le, UInt8.toNat_ofNat']; simp; omega

theorem dec_inj {m n : Nat} (h : dec m = dec n) : m = n := by
  have key : ∀ l : List Char, (∀ c ∈ l, c.isDigit = true) → ∀ l' : List Char, (∀ c ∈ l', c.isDigit = true) →
      l.map (fun c => UInt8.ofNat c.toNat) = l'.map (fun c => UInt8.ofNat c.toNat) → l = l' := by
    intro l
    induction l with
    | nil => intro _ l' _ h; cases l' <;> simp_all
    | cons c l ih =>
      intro hc l' hc' h
      cases l' with
      | nil => simp at h
      | cons c' l' =>
        simp only [List.map_cons, List.cons.injEq] at h
        rw [ih (fun c h => hc c (by simp [h])) l' (fun c h => hc' c (by simp [h])) h.2]
        congr 1
        have h1 := hc c (by simp)
        have h2 := hc' c' (by simp)
        simp only [Char.isDigit, Bool.and_eq_true, decide_eq_true_eq] at h1 h2
        have a1 : c.toNat ≤ 57 := by exact_mod_cast UInt32.le_iff_toNat_le.mp h1.2
        have a2 : c'.toNat ≤ 57 := by exact_mod_cast UInt32.le_iff_toNat_le.mp h2.2
        have := congrArg UInt8.toNat h.1
        simp only [UInt8.toNat_ofNat'] at this
        apply Char.ext
        apply UInt32.toNat_inj.mp
        change c.toNat = c'.toNat
        omega
  have h' := key _ (fun c hc => Nat.isDigit_of_mem_toDigits (by omega) (by omega) hc) _ (fun c hc => Nat.isDigit_of_mem_toDigits (by omega) (by omega) hc) h
  have := congrArg (Nat.ofDigitChars 10 · 0) h'
  simpa using this

/-- Digits and small letters. -/
def HexDigit (c : UInt8) : Prop := (48 ≤ c ∧ c ≤ 57) ∨ (97 ≤ c ∧ c ≤ 102)

theorem makehex_digit {v w : Nat} {c : UInt8} (h : c ∈ makehex v w false) : HexDigit c := by
  induction w generalizing v with
  | zero => cases h
  | succ w ih =>
    rw [makehex] at h
    rcases List.mem_append.mp h with h | h
    · exact ih h
    · rw [List.mem_singleton] at h
      subst h
      have : ∀ x : Fin 16, (48 ≤ hexDigit false x.val ∧ hexDigit false x.val ≤ 57) ∨ (97 ≤ hexDigit false x.val ∧ hexDigit false x.val ≤ 102) := by decide
      exact this ⟨v % 16, Nat.mod_lt _ (by omega)⟩

theorem hexlify_digit {s : Bytes} {c : UInt8} (h : c ∈ hexlify s) : HexDigit c := by
  obtain ⟨x, -, h⟩ := List.mem_flatMap.mp h
  exact makehex_digit h

theorem mpitohex_digit {m : Nat} {c : UInt8} (h : c ∈ mpitohex m) : HexDigit c := by
  rw [mpitohex_eq] at h
  exact makehex_digit h

theorem hexlify_inj {a b : Bytes} (h : hexlify a = hexlify b) : a = b := by
  have h1 := unhexLoop_hexlify a false
  rw [h, unhexLoop_hexlify] at h1
  exact (Out.ok.inj h1).symm

theorem mpitohex_inj {a b : Nat} (h : mpitohex a = mpitohex b) : a = b := by
  have h1 := mpitoraw_eq a
  rw [mpitoraw, h, ← mpitoraw, mpitoraw_eq b] at h1
  have := congrArg num (Out.ok.inj h1)
  rwa [num_mpiRaw, num_mpiRaw, eq_comm] at this

theorem decChar_inj {a b : UInt8} (h : decChar a = decChar b) : a = b := by
  have : ∀ a b : UInt8, decChar a = decChar b → a.toNat = b.toNat := by
    intro a b h
    unfold decChar at h
    have neg : ∀ m n, dec m ≠ 45 :: dec n := fun m n h => absurd (dec_digit (n := m) (c := 45) (by rw [h]; simp)).1 (by decide)
    have := a.toNat_lt
    have := b.toNat_lt
    split at h <;> split at h
    · exact dec_inj h
    · exact absurd h (neg _ _)
    · exact absurd h.symm (neg _ _)
    · have := dec_inj (List.cons.inj h).2; omega
  exact UInt8.toNat_inj.mp (this a b h)

theorem decChar_digit {a c : UInt8} (h : c ∈ decChar a) : c = 45 ∨ (48 ≤ c ∧ c ≤ 57) := by
  unfold decChar at h
  split at h
  · exact Or.inr (dec_digit h)
  · rcases List.mem_cons.mp h with h | h
    · exact Or.inl h
    · exact Or.inr (dec_digit h)

theorem dec_not {n : Nat} {c : UInt8} (h : c < 48) : c ∉ dec n := fun hm => absurd (dec_digit hm).1 (by rw [UInt8.not_le]; exact h)
theorem hex_not {c : UInt8} (h : c < 48) : ¬ HexDigit c := by
  rintro (⟨h1, -⟩ | ⟨h1, -⟩)
  · exact absurd h1 (by rw [UInt8.not_le]; exact h)
  · exact absurd (UInt8.le_trans (by decide) h1 : (48 : UInt8) ≤ c) (by rw [UInt8.not_le]; exact h)
theorem hexlify_not {s : Bytes} {c : UInt8} (h : c < 48) : c ∉ hexlify s := fun hm => hex_not h (hexlify_digit hm)
theorem mpitohex_not {m : Nat} {c : UInt8} (h : c < 48) : c ∉ mpitohex m := fun hm => hex_not h (mpitohex_digit hm)
theorem decChar_not {a c : UInt8} (h : c < 45) : c ∉ decChar a := by
  intro hm
  rcases decChar_digit hm with rfl | ⟨h1, -⟩
  · exact absurd h (by decide)
  · exact absurd (UInt8.le_trans (by decide) h1 : (45 : UInt8) ≤ c) (by rw [UInt8.not_le]; exact h)

end OpenPGP
