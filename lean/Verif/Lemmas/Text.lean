import Verif.Model.Text
import Mathlib.Data.List.Basic
import Mathlib.Tactic.Common
import Mathlib.Data.List.TakeWhile

/-!
# Lemmas on lines of text
-/
namespace OpenPGP

/-- Each line free of line feeds. -/
def NoLf (ls : List Bytes) : Prop := ∀ l ∈ ls, (10 : UInt8) ∉ l

/-- Lines joined by line feeds. -/
def joinLines : List Bytes → Bytes
  | [] => []
  | [l] => l
  | l :: ls => l ++ 10 :: joinLines ls

/-- The lines without an empty one at the end. -/
def dropBlank : List Bytes → List Bytes
  | [] => []
  | [l] => if l = [] then [] else [l]
  | l :: ls => l :: dropBlank ls

theorem getlines_noLf (s : Bytes) : NoLf (getlines s) := by
  induction s with
  | nil => intro l hl; simp [getlines] at hl
  | cons c s ih =>
    rw [getlines]
    split
    · intro l hl
      rcases List.mem_cons.mp hl with rfl | hl
      · simp
      · exact ih l hl
    · rename_i hc
      cases hs : getlines s with
      | nil =>
        intro l hl
        obtain rfl := List.mem_singleton.mp hl
        intro h
        exact hc (List.mem_singleton.mp h).symm
      | cons l' ls =>
        rw [hs] at ih
        intro l hl
        rcases List.mem_cons.mp hl with rfl | hl
        · intro h
          rcases List.mem_cons.mp h with h | h
          · exact hc h.symm
          · exact ih l' (by simp) h
        · exact ih l (by simp [hl])

theorem getlines_nil_iff {s : Bytes} : getlines s = [] ↔ s = [] := by
  cases s with
  | nil => simp [getlines]
  | cons c s =>
    rw [getlines]
    split
    · simp
    · cases getlines s <;> simp

theorem getlines_line {l : Bytes} (hl : (10 : UInt8) ∉ l) (s : Bytes) : getlines (l ++ 10 :: s) = l :: getlines s := by
  induction l with
  | nil => simp [getlines]
  | cons c l ih =>
    have hc : c ≠ 10 := fun h => hl (by simp [h])
    rw [List.cons_append, getlines, if_neg hc, ih fun h => hl (by simp [h])]

theorem getlines_last {l : Bytes} (hl : (10 : UInt8) ∉ l) (hne : l ≠ []) : getlines l = [l] := by
  induction l with
  | nil => exact absurd rfl hne
  | cons c l ih =>
    have hc : c ≠ 10 := fun h => hl (by simp [h])
    rw [getlines, if_neg hc]
    by_cases h : l = []
    · subst h; rfl
    · rw [ih (fun h => hl (by simp [h])) h]

theorem getlines_unlines {ls : List Bytes} (h : NoLf ls) (s : Bytes) : getlines (ls.flatMap (fun l => l ++ [10]) ++ s) = ls ++ getlines s := by
  induction ls with
  | nil => rfl
  | cons l ls ih =>
    rw [List.flatMap_cons, List.append_assoc, List.append_assoc, List.singleton_append, getlines_line (h l (by simp)),
      ih fun l hl => h l (by simp [hl]), List.cons_append]

theorem joinLines_eq : ∀ ls : List Bytes, ls ≠ [] → joinLines ls ++ [10] = ls.flatMap fun l => l ++ [10]
  | [], h => absurd rfl h
  | [l], _ => by simp [joinLines]
  | l :: l' :: ls, _ => by
    have := joinLines_eq (l' :: ls) (by simp)
    rw [joinLines, List.flatMap_cons, ← this, List.append_assoc, List.append_assoc]
    · rfl
    · simp

theorem chopLast_eq (s : Bytes) : chopLast s = s.dropLast := by
  rw [chopLast, List.dropLast_eq_take, subSz]
  split
  · rfl
  · have : s.length = 0 := by omega
    rw [List.length_eq_zero_iff] at this
    subst this; simp

theorem chopLast_lines (f : Bytes → Bytes) (ls : List Bytes) : chopLast (ls.flatMap fun l => f l ++ [10]) = joinLines (ls.map f) := by
  rw [chopLast_eq]
  by_cases h : ls = []
  · subst h; rfl
  · have := joinLines_eq (ls.map f) (by simpa using h)
    rw [List.flatMap_map] at this
    rw [← this]; simp

theorem getlines_joinLines : ∀ ls : List Bytes, NoLf ls → getlines (joinLines ls) = dropBlank ls
  | [], _ => rfl
  | [l], h => by
    rw [joinLines, dropBlank]
    split
    · rename_i e; subst e; rfl
    · rename_i e; exact getlines_last (h l (by simp)) e
  | l :: l' :: ls, h => by
    rw [joinLines, dropBlank, getlines_line (h l (by simp)), getlines_joinLines (l' :: ls) fun x hx => h x (by simp [hx])]
    · simp
    · simp

theorem dropBlank_noLf : ∀ {ls : List Bytes}, NoLf ls → NoLf (dropBlank ls)
  | [], h => h
  | [l], h => by
    rw [dropBlank]; split
    · intro x hx; simp at hx
    · exact h
  | l :: l' :: ls, h => by
    rw [dropBlank]
    · intro x hx
      rcases List.mem_cons.mp hx with rfl | hx
      · exact h x (by simp)
      · exact dropBlank_noLf (ls := l' :: ls) (fun y hy => h y (by simp [hy])) x hx
    · simp

theorem dropBlank_cons {l : Bytes} {ls : List Bytes} (h : ls ≠ []) : dropBlank (l :: ls) = l :: dropBlank ls := by
  cases ls with
  | nil => exact absurd rfl h
  | cons l' ls => rw [dropBlank]; simp

theorem joinLines_cons {l : Bytes} {ls : List Bytes} (h : ls ≠ []) : joinLines (l :: ls) = l ++ 10 :: joinLines ls := by
  cases ls with
  | nil => exact absurd rfl h
  | cons l' ls => rw [joinLines]; simp

/-- What `dropBlank` does. -/
theorem dropBlank_eq (ls : List Bytes) : dropBlank ls = if ls.getLast? = some [] then ls.dropLast else ls := by
  induction ls with
  | nil => rfl
  | cons l ls ih =>
    by_cases h : ls = []
    · subst h
      rw [dropBlank]; simp
    · rw [dropBlank_cons h, ih, List.getLast?_cons, List.dropLast_cons_of_ne_nil h]
      obtain ⟨x, hx⟩ := Option.ne_none_iff_exists'.mp (fun hn => h (List.getLast?_eq_none_iff.mp hn))
      rw [hx]
      simp only [Option.getD_some, Option.some.injEq]
      split <;> rfl

theorem dropBlank_map {f : Bytes → Bytes} (hf : ∀ l, f l = [] ↔ l = []) (ls : List Bytes) :
    dropBlank (ls.map f) = (dropBlank ls).map f := by
  induction ls with
  | nil => rfl
  | cons l ls ih =>
    by_cases h : ls = []
    · subst h
      simp only [List.map_cons, List.map_nil, dropBlank, hf]
      split <;> simp
    · rw [List.map_cons, dropBlank_cons (by simpa using h), dropBlank_cons h, List.map_cons, ih]

/-- `joinLines` undoes `getlines` up to a line feed at the end. -/
theorem joinLines_getlines (s : Bytes) : joinLines (getlines s) = if s.getLast? = some 10 then s.dropLast else s := by
  by_cases hne : s = []
  · subst hne; rfl
  have hls : getlines s ≠ [] := fun h => hne (getlines_nil_iff.mp h)
  have key : ∀ s : Bytes, s ≠ [] → (getlines s).flatMap (fun l => l ++ [10]) = if s.getLast? = some 10 then s else s ++ [10] := by
    intro s
    induction s with
    | nil => intro h; exact absurd rfl h
    | cons c s ih =>
      intro _
      by_cases hs : s = []
      · subst hs
        rw [getlines]
        split
        · rename_i h; subst h; rfl
        · rename_i h
          simp [getlines, h]
      · have ih := ih hs
        have hg : getlines s ≠ [] := fun h => hs (getlines_nil_iff.mp h)
        have hl : (c :: s).getLast? = s.getLast? := by rw [List.getLast?_cons_of_ne_nil hs]
        rw [getlines, hl]
        split
        · rename_i h
          subst h
          rw [List.flatMap_cons, ih]
          split <;> rfl
        · cases hg' : getlines s with
          | nil => exact absurd hg' hg
          | cons l ls =>
            rw [hg', List.flatMap_cons] at ih
            simp only [List.flatMap_cons, List.cons_append]
            rw [ih]
            split <;> rfl
  have h1 := key s hne
  have h2 := joinLines_eq (getlines s) hls
  rw [h1] at h2
  have : joinLines (getlines s) = (joinLines (getlines s) ++ [10]).dropLast := by simp
  rw [this, h2]
  split
  · rfl
  · simp

/-- Line by line changes. -/
theorem escapeLine_noLf {l : Bytes} (h : (10 : UInt8) ∉ l) : (10 : UInt8) ∉ escapeLine l := by
  rw [escapeLine]; split <;> simp [h]

theorem escapeLine_nil (l : Bytes) : escapeLine l = [] ↔ l = [] := by
  rw [escapeLine]; split
  · rename_i h; cases l <;> simp at h ⊢
  · simp

theorem unescape_escape (l : Bytes) : unescapeLine (escapeLine l) = l := by
  rw [escapeLine]
  split
  · rfl
  · rename_i h
    rw [unescapeLine]
    split
    · rename_i h'
      exfalso
      apply h
      cases l with
      | nil => simp at h'
      | cons a l =>
        simp only [List.nil_append, List.take_succ_cons] at h'
        rw [List.cons.injEq] at h'
        rw [h'.1]; rfl
    · rfl

theorem dashEscape_eq (t : Bytes) : dashEscape t = joinLines ((getlines t).map escapeLine) := chopLast_lines _ _
theorem reverseDashEscape_eq (t : Bytes) : reverseDashEscape t = joinLines ((getlines t).map unescapeLine) := chopLast_lines _ _
theorem dataToText_eq (t : Bytes) : dataToText t = joinLines ((getlines t).map stripLine) := chopLast_lines _ _

theorem noLf_map {f : Bytes → Bytes} (hf : ∀ l, (10 : UInt8) ∉ l → (10 : UInt8) ∉ f l) {ls : List Bytes} (h : NoLf ls) : NoLf (ls.map f) := by
  intro l hl
  obtain ⟨x, hx, rfl⟩ := List.mem_map.mp hl
  exact hf x (h x hx)

end OpenPGP
