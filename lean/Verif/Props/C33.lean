import Verif.Lemmas.Text
import Verif.Model.Sigcalc

/-!
# C33: text signatures are insensitive to line endings
-/
namespace OpenPGP

/-- A line without a carriage return at its end. -/
def chompCr (l : Bytes) : Bytes := if l.getLast? = some 13 then l.dropLast else l

theorem canonicalLine_eq (l : Bytes) : canonicalLine l = chompCr l ++ [13, 10] := by
  rw [canonicalLine, chompCr]
  split
  · rename_i h
    obtain ⟨u, rfl⟩ := List.getLast?_eq_some_iff.mp h
    simp
  · simp

theorem chompCr_noLf {l : Bytes} (h : (10 : UInt8) ∉ l) : (10 : UInt8) ∉ chompCr l := by
  rw [chompCr]
  split
  · exact fun hm => h (List.dropLast_subset _ hm)
  · exact h

theorem textToCanonical_eq (t : Bytes) : textToCanonical t = ((getlines t).map chompCr).flatMap fun l => l ++ [13, 10] := by
  rw [textToCanonical, List.flatMap_map]
  congr 1
  funext l
  exact canonicalLine_eq l

theorem getlines_crlf {ls : List Bytes} (h : NoLf ls) (s : Bytes) :
    getlines ((ls.flatMap fun l => l ++ [13, 10]) ++ s) = ls.map (· ++ [13]) ++ getlines s := by
  have h' : NoLf (ls.map (· ++ [13])) := noLf_map (fun l hl => by simp [hl]) h
  rw [← getlines_unlines h' s, List.flatMap_map]
  congr 3
  funext l
  simp

/-- The lines of a canonical text. -/
theorem canonical_lines (t : Bytes) : (getlines (textToCanonical t)).map chompCr = (getlines t).map chompCr := by
  have h : NoLf ((getlines t).map chompCr) := noLf_map (fun l => chompCr_noLf) (getlines_noLf t)
  have := getlines_crlf h []
  rw [List.append_nil] at this
  rw [textToCanonical_eq, this, show getlines [] = [] from rfl, List.append_nil, List.map_map]
  conv_rhs => rw [← List.map_id ((getlines t).map chompCr)]
  apply List.map_congr_left
  intro l _
  simp [chompCr]

/-- Canonicalising twice is canonicalising once, for every text. -/
theorem C33_idempotent (t : Bytes) : textToCanonical (textToCanonical t) = textToCanonical t := by
  rw [textToCanonical_eq (textToCanonical t), canonical_lines, ← textToCanonical_eq]

/-- In the result every line feed has a carriage return in front of it. -/
theorem C33_lf_after_cr (t pre post : Bytes) (h : textToCanonical t = pre ++ 10 :: post) : pre.getLast? = some 13 := by
  rw [textToCanonical_eq] at h
  have hn : NoLf ((getlines t).map chompCr) := noLf_map (fun l => chompCr_noLf) (getlines_noLf t)
  generalize (getlines t).map chompCr = ls at h hn
  induction ls generalizing pre with
  | nil => simp at h
  | cons l ls ih =>
    rw [List.flatMap_cons, List.append_assoc] at h
    have hl := hn l (by simp)
    rcases List.append_eq_append_iff.mp h with ⟨a, e1, e2⟩ | ⟨c, e1, e2⟩
    · -- pre = l ++ a
      cases a with
      | nil => simp at e2
      | cons x a =>
        simp only [List.cons_append, List.nil_append, List.cons.injEq] at e2
        obtain ⟨rfl, e2⟩ := e2
        cases a with
        | nil => rw [e1]; simp
        | cons y a =>
          simp only [List.cons_append, List.cons.injEq] at e2
          obtain ⟨rfl, e2⟩ := e2
          by_cases ha : a = []
          · subst ha
            -- the next character would be a line feed following a line feed
            rw [e1]
            cases ls with
            | nil => simp at e2
            | cons l' ls =>
              exfalso
              rw [List.flatMap_cons, List.nil_append] at e2
              cases l' with
              | nil => simp at e2
              | cons z l' =>
                simp only [List.cons_append, List.cons.injEq] at e2
                exact hn (z :: l') (by simp) (by rw [e2.1]; simp)
          · have := ih a e2 fun x hx => hn x (by simp [hx])
            rw [e1]
            simp [List.getLast?_append, List.getLast?_cons, this]
    · exfalso
      cases c with
      | nil => simp at e2
      | cons x c =>
        simp only [List.cons_append, List.cons.injEq] at e2
        apply hl
        rw [e1, ← e2.1]; simp

/-- Text with the line end `e` after each line of `ls`, and then `last`. -/
def withEnds (e : Bytes) (ls : List Bytes) (last : Bytes) : Bytes := (ls.flatMap fun l => l ++ e) ++ last

/-- For every list of lines, a text with LF line ends and the text with CRLF line ends have the same canonical form, whether or not
the last line is complete. -/
theorem C33_lf_crlf (ls : List Bytes) (last : Bytes) (h : ∀ l ∈ ls, (10 : UInt8) ∉ l) (hcr : ∀ l ∈ ls, l.getLast? ≠ some 13) :
    textToCanonical (withEnds [10] ls last) = textToCanonical (withEnds [13, 10] ls last) := by
  rw [textToCanonical_eq, textToCanonical_eq, withEnds, withEnds, getlines_unlines h, getlines_crlf h, List.map_append, List.map_append,
    List.map_map]
  congr 2
  apply List.map_congr_left
  intro l hl
  simp [chompCr, hcr l hl]

/-- The octets hashed for a text signature are the same, for every signature packet. -/
theorem C33_hash_input {E : Type} (rawE : E → Bytes) (sig : Tag2 E) (ls : List Bytes) (last : Bytes) (h : ∀ l ∈ ls, (10 : UInt8) ∉ l)
    (hcr : ∀ l ∈ ls, l.getLast? ≠ some 13) :
    sign01Input rawE (withEnds [10] ls last) sig = sign01Input rawE (withEnds [13, 10] ls last) sig := by
  rw [sign01Input, sign01Input, canonicalBody, canonicalBody, C33_lf_crlf ls last h hcr]

/-- The lines that matter: without their line ends. -/
def textLines (t : Bytes) : List Bytes := if t = [] then [[]] else (getlines t).map chompCr

/-- Lines joined by CRLF. -/
def joinCrlf : List Bytes → Bytes
  | [] => []
  | [l] => l
  | l :: ls => l ++ 13 :: 10 :: joinCrlf ls

theorem joinCrlf_eq : ∀ ls : List Bytes, ls ≠ [] → joinCrlf ls ++ [13, 10] = ls.flatMap fun l => l ++ [13, 10]
  | [], h => absurd rfl h
  | [l], _ => by simp [joinCrlf]
  | l :: l' :: ls, _ => by
    have := joinCrlf_eq (l' :: ls) (by simp)
    rw [joinCrlf, List.flatMap_cons, ← this, List.append_assoc, List.append_assoc]
    · rfl
    · simp

/-- What is hashed for a text: its lines, joined by CRLF, for every text (RFC 4880 5.2.4, 7.1). -/
theorem canonicalBody_eq (t : Bytes) : canonicalBody t = joinCrlf (textLines t) := by
  rw [canonicalBody, textLines]
  by_cases h : t = []
  · subst h; rfl
  · rw [if_neg h, textToCanonical_eq]
    have hne : (getlines t).map chompCr ≠ [] := by simpa [getlines_nil_iff] using h
    rw [← joinCrlf_eq _ hne, subSz, if_pos (by simp)]
    simp

theorem joinCrlf_inj : ∀ {ls ls' : List Bytes}, NoLf ls → NoLf ls' → ls ≠ [] → ls' ≠ [] → joinCrlf ls = joinCrlf ls' → ls = ls' := by
  intro ls ls' h h' hne hne' e
  have e' : joinCrlf ls ++ [13, 10] = joinCrlf ls' ++ [13, 10] := by rw [e]
  rw [joinCrlf_eq ls hne, joinCrlf_eq ls' hne'] at e'
  have h1 := getlines_crlf h []
  have h2 := getlines_crlf h' []
  rw [List.append_nil] at h1 h2
  rw [e', h2] at h1
  simp only [show getlines [] = [] from rfl, List.append_nil] at h1
  have hinj : Function.Injective fun l : Bytes => l ++ [13] := fun a b hab => List.append_cancel_right hab
  exact (List.map_injective_iff.mpr hinj h1).symm

theorem textLines_noLf (t : Bytes) : NoLf (textLines t) ∧ textLines t ≠ [] := by
  rw [textLines]
  split
  · exact ⟨by intro l hl; obtain rfl := List.mem_singleton.mp hl; simp, by simp⟩
  · rename_i h
    exact ⟨noLf_map (fun l => chompCr_noLf) (getlines_noLf t), by simpa [getlines_nil_iff] using h⟩

/-- Two texts are hashed alike exactly when they have the same lines. -/
theorem C33_same_iff (t t' : Bytes) : canonicalBody t = canonicalBody t' ↔ textLines t = textLines t' := by
  constructor
  · intro h
    rw [canonicalBody_eq, canonicalBody_eq] at h
    exact joinCrlf_inj (textLines_noLf t).1 (textLines_noLf t').1 (textLines_noLf t).2 (textLines_noLf t').2 h
  · intro h; rw [canonicalBody_eq, canonicalBody_eq, h]

example : textToCanonical (ascii "a\nb\r\n\nc") = ascii "a\r\nb\r\n\r\nc\r\n" ∧ canonicalBody (ascii "a\nb\r\n\nc") = ascii "a\r\nb\r\n\r\nc" ∧
    withEnds [13, 10] [ascii "a", ascii ""] (ascii "b") = ascii "a\r\n\r\nb" := by decide

end OpenPGP
