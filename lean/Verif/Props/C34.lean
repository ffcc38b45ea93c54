import Verif.Lemmas.Text

/-!
# C34: dash escaping is reversible and hides armor lines
-/
namespace OpenPGP

/-- The text without a line feed at its end. -/
def chomp (t : Bytes) : Bytes := if t.getLast? = some 10 then t.dropLast else t

/-- Reversing the escaping gives, for every text, the text without its last line feed, and without the one before it as well. -/
theorem C34_reverse (t : Bytes) : reverseDashEscape (dashEscape t) = chomp (chomp t) := by
  rw [reverseDashEscape_eq, dashEscape_eq, getlines_joinLines _ (noLf_map (fun l => escapeLine_noLf) (getlines_noLf t)),
    dropBlank_map escapeLine_nil, List.map_map]
  have : unescapeLine ∘ escapeLine = id := funext unescape_escape
  rw [this, List.map_id]
  have h1 : chomp t = joinLines (getlines t) := (joinLines_getlines t).symm
  rw [h1, chomp, ← joinLines_getlines, getlines_joinLines _ (getlines_noLf t)]

/-- Every text that does not end with two line feeds is recovered up to one line feed at its end (the missing part of the claim:
texts that do, `C34_two_newlines_fails`). -/
theorem C34_roundtrip_partial (t : Bytes) (h : ¬ ∃ u, t = u ++ [10, 10]) :
    reverseDashEscape (dashEscape t) = t ∨ reverseDashEscape (dashEscape t) ++ [10] = t := by
  rw [C34_reverse]
  by_cases hl : t.getLast? = some 10
  · obtain ⟨u, rfl⟩ : ∃ u, t = u ++ [10] := by
      obtain ⟨u, hu⟩ := List.getLast?_eq_some_iff.mp hl
      exact ⟨u, hu⟩
    have h2 : u.getLast? ≠ some 10 := by
      intro h2
      obtain ⟨v, rfl⟩ := List.getLast?_eq_some_iff.mp h2
      exact h ⟨v, by simp⟩
    right
    simp [chomp, h2]
  · left
    simp [chomp, hl]

/-- A text ending with two line feeds loses both. -/
theorem C34_two_newlines_fails (u : Bytes) :
    reverseDashEscape (dashEscape (u ++ [10, 10])) = u := by
  rw [C34_reverse, chomp, chomp]
  have : u ++ [10, 10] = (u ++ [10]) ++ [10] := by simp
  rw [this]
  simp

/-- In the escaped text, every line that starts with a dash starts with a dash and a space, for every text. -/
theorem C34_dash_lines (t : Bytes) (l : Bytes) (hl : l ∈ getlines (dashEscape t)) (hd : l.head? = some 45) : l.take 2 = [45, 32] := by
  rw [dashEscape_eq, getlines_joinLines _ (noLf_map (fun l => escapeLine_noLf) (getlines_noLf t))] at hl
  have hl' : l ∈ (getlines t).map escapeLine := by
    rw [dropBlank_eq] at hl
    split at hl
    · exact List.dropLast_subset _ hl
    · exact hl
  obtain ⟨x, -, rfl⟩ := List.mem_map.mp hl'
  rw [escapeLine] at hd ⊢
  split
  · rfl
  · rename_i h
    rw [if_neg h] at hd
    exact absurd hd h

/-- No line of the escaped text is an armor line. -/
theorem C34_no_armor (t : Bytes) (l : Bytes) (hl : l ∈ getlines (dashEscape t)) : l.take 5 ≠ ascii "-----" := by
  intro h
  have h5 : ascii "-----" = [45, 45, 45, 45, 45] := by decide
  rw [h5] at h
  have hd : l.head? = some 45 := by
    cases l with
    | nil => simp at h
    | cons a l => simp only [List.take_succ_cons, List.cons.injEq] at h; rw [h.1]; rfl
  have := C34_dash_lines t l hl hd
  rw [show (2 : Nat) = min 2 5 from rfl, ← List.take_take, h] at this
  simp at this

/-- Lines without a dash in front stay as they are; the others get the prefix (RFC 4880 7.1). -/
theorem C34_lines (ls : List Bytes) (h : ∀ l ∈ ls, (10 : UInt8) ∉ l) :
    dashEscape (ls.flatMap fun l => l ++ [10]) =
      joinLines (ls.map fun l => if l.head? = some 45 then 45 :: 32 :: l else l) := by
  have hg : getlines (ls.flatMap fun l => l ++ [10]) = ls := by
    have := getlines_unlines (ls := ls) h []
    rw [List.append_nil] at this
    rw [this]; simp [getlines]
  rw [dashEscape_eq, hg]
  congr 1
  apply List.map_congr_left
  intro l _
  rw [escapeLine]
  split <;> rfl

/-- Reading escaped text, also when the writer escaped lines that need not be (RFC 4880 7.1 allows any line): exactly the prefix
`- ` is taken off a line that has it, and every other line stays as it is, also one that begins with a dash. -/
theorem C34_reverse_lines (ls : List (Bool × Bytes)) (h : ∀ x ∈ ls, (10 : UInt8) ∉ x.2)
    (hp : ∀ x ∈ ls, x.1 = false → ¬ ascii "- " <+: x.2) :
    reverseDashEscape (ls.flatMap fun x => (if x.1 then ascii "- " ++ x.2 else x.2) ++ [10]) = joinLines (ls.map fun x => x.2) := by
  have ha : ascii "- " = [45, 32] := by decide
  rw [ha] at hp
  rw [ha]
  have hg : getlines (ls.flatMap fun x => (if x.1 then [45, 32] ++ x.2 else x.2) ++ [10]) =
      ls.map fun x => if x.1 then [45, 32] ++ x.2 else x.2 := by
    have := getlines_unlines (ls := ls.map fun x => if x.1 then [45, 32] ++ x.2 else x.2) (by
      intro l hl
      obtain ⟨x, hx, rfl⟩ := List.mem_map.mp hl
      have := h x hx
      split <;> simp [this]) []
    rw [List.append_nil, List.flatMap_map] at this
    rw [this]; simp [getlines]
  rw [reverseDashEscape_eq, hg, List.map_map]
  congr 1
  apply List.map_congr_left
  rintro ⟨f, l⟩ hx
  have := hp _ hx
  cases f with
  | true => simp [unescapeLine]
  | false =>
    simp only [Function.comp, unescapeLine, Bool.false_eq_true, if_false]
    rw [if_neg]
    intro e
    exact this rfl ⟨l.drop 2, by rw [← e, List.take_append_drop]⟩

example : reverseDashEscape (ascii "-a\n- b\n--\n- From c\n- - d\n") = ascii "-a\nb\n--\nFrom c\n- d" ∧
    ¬ ascii "- " <+: ascii "-a" := by decide

example : dashEscape (ascii "a\n-----BEGIN\n- b\n") = ascii "a\n- -----BEGIN\n- - b" ∧
    reverseDashEscape (dashEscape (ascii "a\n-----BEGIN\n- b\n")) = ascii "a\n-----BEGIN\n- b" ∧
    reverseDashEscape (dashEscape (ascii "a\n\n")) = ascii "a" := by decide

end OpenPGP
