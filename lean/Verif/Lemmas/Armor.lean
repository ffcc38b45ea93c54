import Verif.Spec.Armor
import Verif.Lemmas.Text
import Verif.Props.C02

/-!
# Lemmas on armor
-/
namespace OpenPGP
open Rfc

theorem isWs_iff (c : UInt8) : isWs c = true ↔ isWhite c := by
  have e : ascii " \t\n\x0b\x0c\r" = [0x20, 9, 10, 11, 12, 13] := by decide
  rw [isWhite, e, isWs]
  simp only [Bool.or_eq_true, beq_iff_eq, List.mem_cons, List.not_mem_nil, or_false, or_assoc]

theorem rtrim_eq (l : Bytes) : rtrim l = (l.reverse.dropWhile isWs).reverse := by
  simp [rtrim, trimWhitespace]

theorem rtrim_nil : rtrim [] = [] := rfl

theorem rtrim_of_last {l : Bytes} (h : ∀ c, l.getLast? = some c → isWs c = false) : rtrim l = l := by
  rw [rtrim_eq]
  rcases List.eq_nil_or_concat l with rfl | ⟨m, c, rfl⟩
  · rfl
  · have := h c (by simp)
    simp [this]

theorem rtrim_append {a b : Bytes} (hb : b ≠ []) (h : ∀ c, b.getLast? = some c → isWs c = false) : rtrim (a ++ b) = a ++ b := by
  refine rtrim_of_last fun c hc => h c ?_
  rw [List.getLast?_append] at hc
  cases hb' : b.getLast? with
  | none => exact absurd (List.getLast?_eq_none_iff.mp hb') hb
  | some x => rw [hb'] at hc; simpa using hc

theorem rtrim_idem (l : Bytes) : rtrim (rtrim l) = rtrim l := by
  refine rtrim_of_last fun c hc => ?_
  rw [rtrim_eq, List.getLast?_reverse] at hc
  have := List.head?_dropWhile_not isWs l.reverse
  rw [hc] at this
  simpa using this

theorem trim_of {l : Bytes} (h : ∀ c, l.head? = some c → isWs c = false) (h' : ∀ c, l.getLast? = some c → isWs c = false) :
    trim (32 :: l) = l := by
  have e : (32 :: l).dropWhile isWs = l := by
    cases l with
    | nil => rfl
    | cons c l =>
      rw [List.dropWhile_cons_of_pos (by decide), List.dropWhile_cons_of_neg]
      simp [h c rfl]
  have := rtrim_of_last h'
  rw [rtrim_eq] at this
  simp only [trim, trimWhitespace, if_true, e, this]

/-- The header is found behind lines that are none. -/
theorem findBegin_at : ∀ {ls junk rest : List Bytes} {b : Bytes}, ls.map rtrim = junk ++ b :: rest →
    (∀ l ∈ junk, ¬ armorBegin <+: l) → armorBegin <+: b → ∃ tail, findBegin ls = some (b, tail) ∧ tail.map rtrim = rest
  | [], junk, rest, b, h, _, _ => by simp at h
  | l :: ls, [], rest, b, h, _, hb => by
    simp only [List.map_cons, List.nil_append, List.cons.injEq] at h
    refine ⟨ls, ?_, h.2⟩
    rw [findBegin, if_pos, h.1]
    rw [h.1]
    exact (List.prefix_iff_eq_take.mp hb).symm
  | l :: ls, j :: junk, rest, b, h, hj, hb => by
    simp only [List.map_cons, List.cons_append, List.cons.injEq] at h
    obtain ⟨tail, h1, h2⟩ := findBegin_at h.2 (fun l hl => hj l (by simp [hl])) hb
    refine ⟨tail, ?_, h2⟩
    rw [findBegin, if_neg, h1]
    rw [h.1]
    intro he
    exact hj j (by simp) (List.prefix_iff_eq_take.mpr he.symm)

theorem findBegin_none : ∀ {ls : List Bytes}, (∀ l ∈ ls, ¬ armorBegin <+: rtrim l) → findBegin ls = none
  | [], _ => rfl
  | l :: ls, h => by
    rw [findBegin, if_neg, findBegin_none fun l hl => h l (by simp [hl])]
    intro he
    exact h l (by simp) (List.prefix_iff_eq_take.mpr he.symm)

theorem armorKey_header {h : Bytes × Bytes} (hg : goodHeader h) : armorKey (h.1 ++ ascii ": " ++ h.2) = some h := by
  have e : ascii ": " = [58, 32] := by decide
  rw [e]
  have hk : ∀ c ∈ h.1, (c != 58) = true := by
    intro c hc
    simp only [bne_iff_ne, ne_eq]
    rintro rfl
    exact hg.colon hc
  have h1 : (h.1 ++ [58, 32] ++ h.2).dropWhile (· != 58) = 58 :: 32 :: h.2 := by
    rw [List.append_assoc, List.dropWhile_append_of_pos hk]
    rfl
  have h2 : (h.1 ++ [58, 32] ++ h.2).takeWhile (· != 58) = h.1 := by
    rw [List.append_assoc, List.takeWhile_append_of_pos hk]
    simp
  rw [armorKey, h1]
  simp only [reduceCtorEq, if_false, h2]
  rw [trim_of]
  · intro c hc
    have := mt (isWs_iff c).mp (hg.front c hc)
    simpa using this
  · intro c hc
    have := mt (isWs_iff c).mp (hg.back c hc)
    simpa using this

/-- The headers up to the blank line. -/
theorem armorKeys_at : ∀ {ls : List Bytes} {headers : List (Bytes × Bytes)} {rest : List Bytes},
    ls.map rtrim = headers.map (fun h => h.1 ++ ascii ": " ++ h.2) ++ [] :: rest → (∀ h ∈ headers, goodHeader h) →
    ∃ tail, armorKeys ls = (headers, tail) ∧ tail.map rtrim = rest
  | [], headers, rest, h, _ => by cases headers <;> simp at h
  | l :: ls, [], rest, h, _ => by
    simp only [List.map_cons, List.map_nil, List.nil_append, List.cons.injEq] at h
    refine ⟨ls, ?_, h.2⟩
    rw [armorKeys, if_pos h.1]
  | l :: ls, k :: headers, rest, h, hg => by
    simp only [List.map_cons, List.cons_append, List.cons.injEq] at h
    obtain ⟨tail, h1, h2⟩ := armorKeys_at h.2 (fun x hx => hg x (by simp [hx]))
    refine ⟨tail, ?_, h2⟩
    have hn : rtrim l ≠ [] := by
      rw [h.1]
      have := (hg k (by simp)).nonempty
      simp [this]
    rw [armorKeys, if_neg hn, h.1, armorKey_header (hg k (by simp)), h1]

/-- The body up to the tail. -/
theorem armorBody_at : ∀ {ls body : List Bytes} {rest : List Bytes} {e : Bytes} {b c chk : Bytes},
    ls.map rtrim = body ++ (61 :: chk) :: e :: rest → (∀ l ∈ body, l.head? ≠ some 61 ∧ ¬ armorEnd <+: l) → armorEnd <+: e →
    armorBody b c ls = (b ++ body.flatten, 61 :: chk)
  | [], body, rest, e, b, c, chk, h, _, _ => by simp at h
  | l :: ls, [], rest, e, b, c, chk, h, _, he => by
    simp only [List.map_cons, List.nil_append, List.cons.injEq] at h
    rw [armorBody, if_pos (by rw [h.1]; rfl), h.1]
    obtain ⟨-, h⟩ := h
    cases ls with
    | nil => simp at h
    | cons l ls =>
      simp only [List.map_cons, List.cons.injEq] at h
      rw [armorBody, if_neg, if_pos]
      · simp
      · rw [h.1]; exact (List.prefix_iff_eq_take.mp he).symm
      · rw [h.1]
        obtain ⟨x, rfl⟩ := he
        rw [show armorEnd = 45 :: ascii "----END PGP " from by decide]
        simp
  | l :: ls, x :: body, rest, e, b, c, chk, h, hb, he => by
    simp only [List.map_cons, List.cons_append, List.cons.injEq] at h
    have hx := hb x (by simp)
    rw [armorBody, if_neg (by rw [h.1]; exact hx.1), if_neg, armorBody_at h.2 (fun l hl => hb l (by simp [hl])) he, h.1]
    · simp
    · rw [h.1]
      intro hh
      exact hx.2 (List.prefix_iff_eq_take.mpr hh.symm)

/-- Radix-64 text: a multiple of four characters of the alphabet, at the end at most two '='. -/
def radixText (s : Bytes) : Prop :=
  s.length % 4 = 0 ∧ ∃ body pad, s = body ++ List.replicate pad 61 ∧ pad ≤ 2 ∧ ∀ c ∈ body, Spec.alnum c ∨ c = 43 ∨ c = 47

theorem ascii2radix64_text (s : Bytes) : radixText (ascii2radix64 s) :=
  ⟨by rw [C02_radix64_length]; omega, C02_radix64_alphabet s 43 47⟩

theorem radixText.chars {s : Bytes} (h : radixText s) : ∀ c ∈ s, Spec.alnum c ∨ c = 43 ∨ c = 47 ∨ c = 61 := by
  obtain ⟨-, body, pad, rfl, -, hb⟩ := h
  intro c hc
  rcases List.mem_append.mp hc with hc | hc
  · rcases hb c hc with h | h | h <;> simp [h]
  · simp [List.eq_of_mem_replicate hc]

private theorem char_facts : ∀ c : UInt8, (Spec.alnum c ∨ c = 43 ∨ c = 47 ∨ c = 61) → c ≠ 10 ∧ c ≠ 45 ∧ isWs c = false := by
  have : ∀ i : Fin 256, (Spec.alnum (UInt8.ofNat i) ∨ UInt8.ofNat i = 43 ∨ UInt8.ofNat i = 47 ∨ UInt8.ofNat i = 61) →
    UInt8.ofNat i ≠ 10 ∧ UInt8.ofNat i ≠ 45 ∧ isWs (UInt8.ofNat i) = false := by decide +kernel
  intro c
  have := this ⟨c.toNat, c.toNat_lt⟩
  simpa using this

theorem radixChar_ok {c : UInt8} (h : Spec.alnum c ∨ c = 43 ∨ c = 47 ∨ c = 61) : c ≠ 10 ∧ c ≠ 45 ∧ isWs c = false := char_facts c h

theorem radixText.head {s : Bytes} (h : radixText s) : s.head? ≠ some 61 := by
  obtain ⟨hl, body, pad, rfl, hp, hb⟩ := h
  cases body with
  | nil =>
    have : pad = 0 := by
      simp only [List.nil_append, List.length_replicate] at hl
      omega
    subst this
    simp
  | cons c body =>
    intro he
    simp only [List.cons_append, List.head?_cons, Option.some.injEq] at he
    subst he
    have := hb 61 (by simp)
    revert this
    decide

theorem radixText.drop {s : Bytes} (h : radixText s) : radixText (s.drop 64) := by
  obtain ⟨hl, body, pad, rfl, hp, hb⟩ := h
  refine ⟨by rw [List.length_drop]; omega, ?_⟩
  by_cases hlt : 64 < (body ++ List.replicate pad (61 : UInt8)).length
  · refine ⟨body.drop 64, pad, ?_, hp, fun c hc => hb c (List.mem_of_mem_drop hc)⟩
    rw [List.drop_append_of_le_length]
    simp only [List.length_append, List.length_replicate] at hl hlt
    omega
  · refine ⟨[], 0, ?_, by omega, by simp⟩
    rw [List.drop_eq_nil_of_le (by omega)]
    rfl

/-- The lines of `format_string` of radix-64 text. -/
theorem formatLoop_lines : ∀ (f : Nat) (s : Bytes), radixText s → s.length ≤ f →
    ∃ ls : List Bytes, formatLoop 64 f s = ls.flatMap (fun l => l ++ [10]) ∧ ls.flatten = s ∧
      ∀ l ∈ ls, l.head? ≠ some 61 ∧ l.length ≤ 64
  | 0, s, _, hf => by
    have : s = [] := List.length_eq_zero_iff.mp (by omega)
    subst this
    exact ⟨[], rfl, rfl, by simp⟩
  | f + 1, [], _, _ => ⟨[], rfl, rfl, by simp⟩
  | f + 1, c :: s, h, hf => by
    obtain ⟨ls, h1, h2, h3⟩ := formatLoop_lines f ((c :: s).drop 64) h.drop (by
      rw [List.length_drop]; simp only [List.length_cons] at hf ⊢; omega)
    refine ⟨(c :: s).take 64 :: ls, ?_, ?_, ?_⟩
    · rw [formatLoop, h1]
      · simp
      · simp
    · rw [List.flatten_cons, h2, List.take_append_drop]
    · intro l hl
      rcases List.mem_cons.mp hl with rfl | hl
      · have := h.head
        exact ⟨by simpa using this, List.length_take_le _ _⟩
      · exact h3 l hl

end OpenPGP
