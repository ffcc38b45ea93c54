import Verif.Model.Cli
import Verif.Spec.Cli
import Mathlib.Data.List.Nodup

/-!
# C55: command lines
-/
namespace OpenPGP.Cli
open Module

theorem lookup_isSome {α : Type} (l : List (Bytes × α)) (k : Bytes) : (l.lookup k).isSome = true ↔ k ∈ l.map Prod.fst := by
  induction l with
  | nil => simp
  | cons x l ih =>
    rw [List.lookup_cons]
    by_cases h : k = x.1
    · simp [h]
    · have : (k == x.1) = false := by simpa using h
      rw [this]
      simpa [h] using ih

theorem parseLoop_cons (m : Module) (isPos : Bool) (rest : List Bytes) (p : Parsed) (w : Bytes) (ws : List Bytes) :
    m.parseLoop isPos rest p (w :: ws) =
      if w = dashes then m.parseLoop true rest p ws
      else if !isPos && (m.opts.lookup w).isSome then
        match ws with
        | [] => .error w
        | v :: ws => m.parseLoop isPos rest { p with args := assign p.args w v } ws
      else if !isPos && (m.flags.lookup w).isSome then
        m.parseLoop isPos rest { p with flags := assign p.flags w (!(m.flags.lookup w).getD false) } ws
      else match rest with
        | [] => m.parseLoop isPos [] p ws
        | n :: rest => m.parseLoop isPos rest { p with args := assign p.args n w } ws := by
  cases rest <;> cases ws <;> rw [parseLoop.eq_def]

private def wordsOf (items : List Item) : List Bytes := items.filterMap fun | .word v => some v | _ => none
private def valuesOf (items : List Item) (name : Bytes) : List Bytes :=
  items.filterMap fun | .opt n v => if n = name then some v else none | _ => none

/-- What the items leave behind. -/
private def after (m : Module) (rest : List Bytes) (p : Parsed) (items : List Item) : Parsed :=
  ⟨fun k => if k ∈ m.opts.map Prod.fst then (valuesOf items k).getLast?.or (p.args k) else ((rest.zip (wordsOf items)).lookup k).or (p.args k),
   fun k => if Item.flag k ∈ items then some (!(m.flags.lookup k).getD false) else p.flags k⟩

private theorem items_loop (m : Module) (items : List Item) : ∀ (rest : List Bytes) (p : Parsed) (tail : List Bytes),
    (∀ i ∈ items, i.fits m.opts m.flags) → rest.Nodup → (∀ n ∈ rest, n ∉ m.opts.map Prod.fst) →
    m.parseLoop false rest p (items.flatMap Item.spell ++ tail) =
      m.parseLoop false (rest.drop (wordsOf items).length) (after m rest p items) tail := by
  induction items with
  | nil =>
    intro rest p tail _ _ _
    have : after m rest p [] = p := by simp [after, valuesOf, wordsOf]
    rw [this]
    rfl
  | cons i items ih =>
    intro rest p tail hfit hnd hdis
    have hi := hfit i List.mem_cons_self
    have hfit' : ∀ i ∈ items, i.fits m.opts m.flags := fun j hj => hfit j (List.mem_cons_of_mem _ hj)
    cases i with
    | opt n v =>
      obtain ⟨h1, h2⟩ := hi
      have hs := (lookup_isSome m.opts n).mpr h1
      rw [show (Item.opt n v :: items).flatMap Item.spell ++ tail = n :: v :: (items.flatMap Item.spell ++ tail) from rfl, parseLoop_cons,
        if_neg (by exact h2), if_pos (by simpa using hs)]
      simp only
      rw [ih rest _ tail hfit' hnd hdis]
      congr 1
      simp only [after, Parsed.mk.injEq]
      constructor
      · funext k
        by_cases hk : k ∈ m.opts.map Prod.fst
        · simp only [if_pos hk]
          by_cases hkn : n = k
          · subst hkn
            rw [show valuesOf (.opt n v :: items) n = v :: valuesOf items n by simp [valuesOf]]
            rw [List.getLast?_cons, assign, if_pos rfl]
            cases (valuesOf items n).getLast? <;> rfl
          · rw [show valuesOf (.opt n v :: items) k = valuesOf items k by simp [valuesOf, hkn], assign, if_neg (Ne.symm hkn)]
        · simp only [if_neg hk]
          have hkn : k ≠ n := fun e => hk (e ▸ h1)
          rw [show assign p.args n v k = p.args k from if_neg hkn]
          rfl
      · funext k
        simp
    | flag n =>
      obtain ⟨h1, h2, h3⟩ := hi
      have hs := (lookup_isSome m.flags n).mpr h1
      have hno : (m.opts.lookup n).isSome = false := by
        rw [← Bool.not_eq_true, lookup_isSome]; exact h3
      rw [show (Item.flag n :: items).flatMap Item.spell ++ tail = n :: (items.flatMap Item.spell ++ tail) from rfl, parseLoop_cons,
        if_neg (by exact h2), if_neg (by simp [hno]), if_pos (by simpa using hs), ih rest _ tail hfit' hnd hdis]
      congr 1
      simp only [after, Parsed.mk.injEq]
      constructor
      · rfl
      · funext k
        by_cases hk : Item.flag k ∈ items
        · rw [if_pos hk, if_pos (List.mem_cons_of_mem _ hk)]
        · rw [if_neg hk, assign]
          by_cases hkn : k = n
          · subst hkn
            rw [if_pos rfl, if_pos List.mem_cons_self]
          · rw [if_neg hkn, if_neg (by simp [hk, hkn])]
    | word v =>
      obtain ⟨h1, h2, h3⟩ := hi
      have hno : (m.opts.lookup v).isSome = false := by
        rw [← Bool.not_eq_true, lookup_isSome]; exact h1
      have hnf : (m.flags.lookup v).isSome = false := by
        rw [← Bool.not_eq_true, lookup_isSome]; exact h2
      rw [show (Item.word v :: items).flatMap Item.spell ++ tail = v :: (items.flatMap Item.spell ++ tail) from rfl, parseLoop_cons,
        if_neg (by exact h3), if_neg (by simp [hno]), if_neg (by simp [hnf])]
      cases rest with
      | nil =>
        rw [ih [] _ tail hfit' hnd hdis, List.drop_nil, List.drop_nil]
        have hp : after m [] p items = after m [] p (.word v :: items) := by
          show Parsed.mk _ _ = Parsed.mk _ _
          rw [Parsed.mk.injEq]
          exact ⟨rfl, by funext k; simp⟩
        rw [hp]
      | cons r rest =>
        simp only
        rw [ih rest _ tail hfit' (List.nodup_cons.mp hnd).2 (fun n hn => hdis n (List.mem_cons_of_mem _ hn))]
        congr 1
        simp only [after, Parsed.mk.injEq]
        constructor
        · funext k
          have hr := hdis r List.mem_cons_self
          by_cases hk : k ∈ m.opts.map Prod.fst
          · simp only [if_pos hk]
            have hkr : k ≠ r := fun e => hr (e ▸ hk)
            rw [show assign p.args r v k = p.args k from if_neg hkr]
            rfl
          · simp only [if_neg hk]
            rw [show wordsOf (.word v :: items) = v :: wordsOf items from rfl, List.zip_cons_cons, List.lookup_cons, assign]
            by_cases hkr : k = r
            · subst hkr
              have hn := (List.nodup_cons.mp hnd).1
              have : (rest.zip (wordsOf items)).lookup k = none := by
                rw [← Option.not_isSome_iff_eq_none, lookup_isSome]
                intro hmem
                obtain ⟨x, hx, he⟩ := List.mem_map.mp hmem
                exact hn (he ▸ (List.of_mem_zip hx).1)
              rw [this]
              simp
            · have : (k == r) = false := by simpa using hkr
              rw [this, if_neg hkr]
        · funext k
          simp

/-- The words behind a double dash. -/
private theorem verbatim_loop (m : Module) : ∀ (ws rest : List Bytes) (p : Parsed), [45, 45] ∉ ws → rest.Nodup →
    m.parseLoop true rest p ws = if h : ws.length < rest.length then .error rest[ws.length]
      else .ok ⟨fun k => ((rest.zip ws).lookup k).or (p.args k), p.flags⟩ := by
  intro ws
  induction ws with
  | nil =>
    intro rest p _ _
    cases rest with
    | nil => rw [parseLoop.eq_1]; simp
    | cons r rest => rw [parseLoop.eq_2]; simp
  | cons w ws ih =>
    intro rest p hw hnd
    have hne : w ≠ dashes := fun e => hw (e ▸ List.mem_cons_self)
    have hws : [45, 45] ∉ ws := fun h => hw (List.mem_cons_of_mem _ h)
    rw [parseLoop_cons, if_neg hne, if_neg (by simp), if_neg (by simp)]
    cases rest with
    | nil =>
      simp only
      rw [ih [] p hws hnd]
      simp
    | cons r rest =>
      simp only
      rw [ih rest _ hws (List.nodup_cons.mp hnd).2]
      by_cases hl : ws.length < rest.length
      · rw [dif_pos hl, dif_pos (by simpa using hl)]
        rfl
      · rw [dif_neg hl, dif_neg (by simpa using hl)]
        congr 2
        funext k
        rw [List.zip_cons_cons, List.lookup_cons]
        show (List.lookup k (rest.zip ws)).or (if k = r then some w else p.args k) = _
        by_cases hkr : k = r
        · subst hkr
          have hn := (List.nodup_cons.mp hnd).1
          have : (rest.zip ws).lookup k = none := by
            rw [← Option.not_isSome_iff_eq_none, lookup_isSome]
            intro hmem
            obtain ⟨x, hx, he⟩ := List.mem_map.mp hmem
            exact hn (he ▸ (List.of_mem_zip hx).1)
          rw [this]
          simp
        · have : (k == r) = false := by simpa using hkr
          rw [this, if_neg hkr]

private theorem lookup_zip {rest : List Bytes} (hnd : rest.Nodup) : ∀ (ws : List Bytes) (i : Nat) (h : i < rest.length),
    (rest.zip ws).lookup rest[i] = ws[i]? := by
  induction rest with
  | nil => intro ws i h; simp at h
  | cons r rest ih =>
    intro ws i h
    cases ws with
    | nil => simp
    | cons w ws =>
      rw [List.zip_cons_cons, List.lookup_cons]
      cases i with
      | zero => simp
      | succ i =>
        have hne : ((r :: rest)[i + 1] == r) = false := by
          rw [List.getElem_cons_succ]
          have hn := (List.nodup_cons.mp hnd).1
          simp only [beq_eq_false_iff_ne, ne_eq]
          intro e
          exact hn (e ▸ List.getElem_mem _)
        rw [hne]
        simpa using ih (List.nodup_cons.mp hnd).2 ws i (by simpa using h)

private theorem lookup_zip_none {rest ws : List Bytes} {k : Bytes} (h : k ∉ rest) : (rest.zip ws).lookup k = none := by
  rw [← Option.not_isSome_iff_eq_none, lookup_isSome]
  intro hmem
  obtain ⟨x, hx, he⟩ := List.mem_map.mp hmem
  exact h (he ▸ (List.of_mem_zip hx).1)

/-- The names of a module that could be constructed. -/
theorem constructs_names {m : Module} (h : m.constructs = true) :
    m.positional.Nodup ∧ (∀ n ∈ m.positional, n ∉ m.opts.map Prod.fst) ∧ (∀ n ∈ m.positional, n ∉ m.flags.map Prod.fst) ∧
      ∀ n ∈ m.flags.map Prod.fst, n ∉ m.opts.map Prod.fst := by
  simp only [constructs, noDuplicates, Bool.and_eq_true, decide_eq_true_eq, List.all_eq_true] at h
  obtain ⟨-, ⟨⟨h1, h2⟩, h3⟩, h4⟩ := h
  refine ⟨h1, fun n hn hc => ?_, fun n hn hc => ?_, fun n hn hc => ?_⟩
  · have := h2 n hn
    rw [← lookup_isSome] at hc
    cases hl : m.opts.lookup n <;> simp [hl] at hc this
  · have := h3 n hn
    rw [← lookup_isSome] at hc
    cases hl : m.flags.lookup n <;> simp [hl] at hc this
  · obtain ⟨f, hf, rfl⟩ := List.mem_map.mp hn
    have := h4 f hf
    rw [← lookup_isSome] at hc
    cases hl : m.opts.lookup f.1 <;> simp [hl] at hc this

private theorem line_loop (m : Module) (hm : m.constructs = true) (l : Line) (hf : l.fits m.opts m.flags)
    (hd : [45, 45] ∉ l.verbatim.getD []) :
    m.parse l.spell = if h : l.words.length < m.positional.length then .error m.positional[l.words.length]
      else .ok ⟨fun k => (((m.positional.drop (wordsOf l.items).length).zip (l.verbatim.getD [])).lookup k).or
        ((after m m.positional m.defaults l.items).args k), (after m m.positional m.defaults l.items).flags⟩ := by
  obtain ⟨h1, h2, -, -⟩ := constructs_names hm
  have hw : l.words = wordsOf l.items ++ l.verbatim.getD [] := rfl
  have hlen : l.words.length = (wordsOf l.items).length + (l.verbatim.getD []).length := by rw [hw, List.length_append]
  rw [parse, Line.spell, items_loop m l.items _ _ _ hf h1 h2]
  obtain ⟨items, v⟩ := l
  have hkey : ∀ (b : Bool) (ws : List Bytes) (p : Parsed), [45, 45] ∉ ws → (b = false → ws = []) →
      m.parseLoop b (m.positional.drop (wordsOf items).length) p ws =
        if h : ws.length < (m.positional.drop (wordsOf items).length).length then .error (m.positional.drop (wordsOf items).length)[ws.length]
        else .ok ⟨fun k => (((m.positional.drop (wordsOf items).length).zip ws).lookup k).or (p.args k), p.flags⟩ := by
    intro b ws p hws hb
    cases b with
    | true => exact verbatim_loop m ws _ p hws (h1.sublist (List.drop_sublist _ _))
    | false =>
      rw [hb rfl]
      generalize m.positional.drop (wordsOf items).length = rest
      cases rest with
      | nil => rw [parseLoop.eq_1]; simp
      | cons r rest => rw [parseLoop.eq_2]; simp
  have hfin : ∀ (ws : List Bytes), (⟨items, v⟩ : Line).words.length = (wordsOf items).length + ws.length → ws = v.getD [] →
      (if h : ws.length < (m.positional.drop (wordsOf items).length).length then
          (.error (m.positional.drop (wordsOf items).length)[ws.length] : Except Bytes Parsed)
        else .ok ⟨fun k => (((m.positional.drop (wordsOf items).length).zip ws).lookup k).or
          ((after m m.positional m.defaults items).args k), (after m m.positional m.defaults items).flags⟩) =
      if h : (⟨items, v⟩ : Line).words.length < m.positional.length then .error m.positional[(⟨items, v⟩ : Line).words.length]
      else .ok ⟨fun k => (((m.positional.drop (wordsOf items).length).zip (v.getD [])).lookup k).or
        ((after m m.positional m.defaults items).args k), (after m m.positional m.defaults items).flags⟩ := by
    intro ws hl hv
    subst hv
    by_cases hc : (⟨items, v⟩ : Line).words.length < m.positional.length
    · rw [dif_pos hc, dif_pos (by rw [List.length_drop]; omega)]
      congr 1
      simp only [List.getElem_drop]
      congr 1
      exact hl.symm
    · rw [dif_neg hc, dif_neg (by rw [List.length_drop]; omega)]
  cases v with
  | none =>
    simp only
    rw [hkey false [] _ (by simp) (fun _ => rfl)]
    exact hfin [] hlen rfl
  | some ws =>
    simp only
    rw [parseLoop_cons, if_pos (show [45, 45] = dashes from rfl), hkey true ws _ hd (by simp)]
    exact hfin ws hlen rfl

/-- A command line is read as the module declares it: the words become the positional arguments in order, an option has the value given
last or its default value, a flag is the opposite of its default exactly if it is given, however often. -/
theorem C55_reads (m : Module) (hm : m.constructs = true) (l : Line) (hf : l.fits m.opts m.flags) (hd : [45, 45] ∉ l.verbatim.getD [])
    (hw : m.positional.length ≤ l.words.length) :
    ∃ p, m.parse l.spell = .ok p ∧
      (∀ i (h : i < m.positional.length), p.args m.positional[i] = l.words[i]?) ∧
      (∀ n d, m.opts.lookup n = some d → p.args n = some ((l.values n).getLast?.getD d)) ∧
      (∀ n d, m.flags.lookup n = some d → p.flags n = some (if l.has n then !d else d)) ∧
      (∀ n, n ∉ m.positional → n ∉ m.opts.map Prod.fst → p.args n = none) ∧ ∀ n, n ∉ m.flags.map Prod.fst → p.flags n = none := by
  obtain ⟨h1, h2, h3, h4⟩ := constructs_names hm
  have hl := line_loop m hm l hf hd
  rw [dif_neg (by omega)] at hl
  refine ⟨_, hl, ?_, ?_, ?_, ?_, ?_⟩
  · intro i hi
    have hno : m.positional[i] ∉ m.opts.map Prod.fst := h2 _ (List.getElem_mem hi)
    simp only [after, if_neg hno]
    have hdef : m.defaults.args m.positional[i] = none := by
      rw [← Option.not_isSome_iff_eq_none]
      exact fun h => hno ((lookup_isSome _ _).mp h)
    rw [hdef, Option.or_none, lookup_zip h1]
    have hws : l.words = wordsOf l.items ++ l.verbatim.getD [] := rfl
    rw [hws]
    by_cases hc : i < (wordsOf l.items).length
    · rw [List.getElem?_append_left hc, lookup_zip_none, Option.none_or]
      intro hmem
      obtain ⟨j, hj, he⟩ := List.mem_iff_getElem.mp hmem
      rw [List.getElem_drop] at he
      have := (List.Nodup.getElem_inj_iff h1 (hi := by rw [List.length_drop] at hj; omega) (hj := hi)).mp he
      omega
    · rw [List.getElem?_append_right (by omega)]
      have := lookup_zip (rest := m.positional.drop (wordsOf l.items).length) (h1.sublist (List.drop_sublist _ _)) (l.verbatim.getD [])
        (i - (wordsOf l.items).length) (by rw [List.length_drop]; omega)
      simp only [List.getElem_drop, show (wordsOf l.items).length + (i - (wordsOf l.items).length) = i by omega] at this
      rw [this, List.getElem?_eq_none (l := wordsOf l.items) (by omega), Option.or_none]
  · intro n d hn
    have hno : n ∈ m.opts.map Prod.fst := (lookup_isSome _ _).mp (by rw [hn]; rfl)
    have hnp : n ∉ m.positional := fun h => h2 n h hno
    simp only [after, if_pos hno]
    rw [lookup_zip_none (fun h => hnp (List.mem_of_mem_drop h)), Option.none_or, show m.defaults.args n = some d from hn]
    show _ = some ((valuesOf l.items n).getLast?.getD d)
    cases (valuesOf l.items n).getLast? <;> rfl
  · intro n d hn
    simp only [after, hn, show m.defaults.flags n = some d from hn, Line.has]
    split <;> rfl
  · intro n hn1 hn2
    simp only [after, if_neg hn2]
    rw [lookup_zip_none (fun h => hn1 (List.mem_of_mem_drop h)), lookup_zip_none hn1, Option.none_or, Option.none_or]
    exact Option.not_isSome_iff_eq_none.mp fun h => hn2 ((lookup_isSome _ _).mp h)
  · intro n hn
    simp only [after]
    have hno : Item.flag n ∉ l.items := fun h => hn (hf (Item.flag n) h).1
    rw [if_neg hno]
    exact Option.not_isSome_iff_eq_none.mp fun h => hn ((lookup_isSome _ _).mp h)

/-- Words beyond the positional arguments are ignored: nothing tells the user that they had no effect. -/
theorem C55_surplus_fails (m : Module) (hm : m.constructs = true) (l : Line) (hf : l.fits m.opts m.flags) (hv : l.verbatim = none)
    (hw : m.positional.length ≤ l.words.length) (extra : List Bytes) (hx : [45, 45] ∉ extra) :
    m.parse (l.spell ++ [45, 45] :: extra) = m.parse l.spell := by
  obtain ⟨items, v⟩ := l
  simp only at hv
  subst hv
  have e : (⟨items, none⟩ : Line).spell ++ [45, 45] :: extra = (⟨items, some extra⟩ : Line).spell := by simp [Line.spell]
  have hw' : (⟨items, some extra⟩ : Line).words.length = (⟨items, none⟩ : Line).words.length + extra.length := by simp [Line.words]
  rw [e, line_loop m hm ⟨items, some extra⟩ hf hx, line_loop m hm ⟨items, none⟩ hf (by simp), dif_neg (by omega), dif_neg (by omega)]
  have : m.positional.drop (wordsOf items).length = [] := by
    apply List.drop_eq_nil_of_le
    have : (⟨items, none⟩ : Line).words = wordsOf items := List.append_nil _
    rw [← this]
    exact hw
  rw [this]
  rfl

/-- Too few words: the first positional argument without a value is named, and nothing runs. -/
theorem C55_too_few (m : Module) (hm : m.constructs = true) (l : Line) (hf : l.fits m.opts m.flags) (hd : [45, 45] ∉ l.verbatim.getD [])
    (hw : l.words.length < m.positional.length) : m.parse l.spell = .error m.positional[l.words.length] := by
  rw [line_loop m hm l hf hd, dif_pos hw]

/-- An option at the end of the line without a value: it is named, and nothing runs. -/
theorem C55_no_value (m : Module) (hm : m.constructs = true) (items : List Item) (hf : ∀ i ∈ items, i.fits m.opts m.flags) (n : Bytes)
    (hn : n ∈ m.opts.map Prod.fst) (hnd : n ≠ [45, 45]) : m.parse (items.flatMap Item.spell ++ [n]) = .error n := by
  obtain ⟨h1, h2, -, -⟩ := constructs_names hm
  rw [parse, items_loop m items _ _ _ hf h1 h2, parseLoop_cons, if_neg (by exact hnd), if_pos (by simpa using (lookup_isSome m.opts n).mpr hn)]

/-- Every row of words is a command line of the kinds above. -/
theorem C55_every_line (m : Module) (argv : List Bytes) :
    (∃ l : Line, l.fits m.opts m.flags ∧ l.spell = argv) ∨
      ∃ (items : List Item) (n : Bytes), (∀ i ∈ items, i.fits m.opts m.flags) ∧ n ∈ m.opts.map Prod.fst ∧ argv = items.flatMap Item.spell ++ [n] := by
  induction hn : argv.length using Nat.strong_induction_on generalizing argv with
  | _ k ih =>
  subst hn
  have step : ∀ (i : Item) (rest : List Bytes), i.fits m.opts m.flags → argv = i.spell ++ rest → rest.length < argv.length →
      (∃ l : Line, l.fits m.opts m.flags ∧ l.spell = argv) ∨
      ∃ (items : List Item) (n : Bytes), (∀ i ∈ items, i.fits m.opts m.flags) ∧ n ∈ m.opts.map Prod.fst ∧ argv = items.flatMap Item.spell ++ [n] := by
    intro i rest hi he hl
    rcases ih _ hl rest rfl with ⟨l, hl1, hl2⟩ | ⟨items, n, g1, g2, g3⟩
    · left
      refine ⟨⟨i :: l.items, l.verbatim⟩, ?_, ?_⟩
      · intro j hj
        rcases List.mem_cons.mp hj with rfl | hj
        · exact hi
        · exact hl1 j hj
      · rw [he, ← hl2]
        simp [Line.spell]
    · right
      refine ⟨i :: items, n, ?_, g2, ?_⟩
      · intro j hj
        rcases List.mem_cons.mp hj with rfl | hj
        · exact hi
        · exact g1 j hj
      · rw [he, g3]
        simp
  cases argv with
  | nil => exact Or.inl ⟨⟨[], none⟩, by simp [Line.fits], rfl⟩
  | cons w ws =>
    by_cases hw : w = [45, 45]
    · subst hw
      exact Or.inl ⟨⟨[], some ws⟩, by simp [Line.fits], rfl⟩
    by_cases ho : w ∈ m.opts.map Prod.fst
    · cases ws with
      | nil => exact Or.inr ⟨[], w, by simp, ho, rfl⟩
      | cons v ws => exact step (.opt w v) ws ⟨ho, hw⟩ rfl (by simp only [List.length_cons]; omega)
    by_cases hfl : w ∈ m.flags.map Prod.fst
    · exact step (.flag w) ws ⟨hfl, hw, ho⟩ rfl (by simp)
    · exact step (.word w) ws ⟨ho, hfl, hw⟩ rfl (by simp)

/-- A double dash behind the double dash is not a word, as it would be elsewhere: it is dropped. -/
theorem C55_second_dashes_fails (m : Module) (hm : m.constructs = true) (l : Line) (hf : l.fits m.opts m.flags) (ws : List Bytes) (hv : l.verbatim = some ws) :
    m.parse l.spell = m.parse (Line.mk l.items (some (ws.filter (· ≠ [45, 45])))).spell := by
  obtain ⟨h1, h2, -, -⟩ := constructs_names hm
  obtain ⟨items, v⟩ := l
  simp only at hv
  subst hv
  rw [parse, parse, Line.spell, Line.spell]
  simp only
  rw [items_loop m items _ _ _ hf h1 h2, items_loop m items _ _ _ hf h1 h2, parseLoop_cons, if_pos (show [45, 45] = dashes from rfl), parseLoop_cons,
    if_pos (show [45, 45] = dashes from rfl)]
  generalize List.drop _ _ = rest
  generalize after m _ _ items = p
  clear hf
  induction ws generalizing rest p with
  | nil => rfl
  | cons w ws ih =>
    rw [parseLoop_cons]
    by_cases hw : w = [45, 45]
    · rw [if_pos (by exact hw), List.filter_cons_of_neg (by simp [hw])]
      exact ih rest p
    · rw [if_neg (by exact hw), if_neg (by simp), if_neg (by simp), List.filter_cons_of_pos (by simp [hw]), parseLoop_cons, if_neg (by exact hw),
        if_neg (by simp), if_neg (by simp)]
      cases rest with
      | nil => exact ih [] p
      | cons r rest => exact ih rest _

/-- A module does what it declares only if its line can be read: a line that cannot be read runs nothing and ends with -1. -/
theorem C55_unread (m : Module) (argv : List Bytes) (n : Bytes) (h : m.parse argv = .error n) : m.call argv = .ok ⟨-1, []⟩ := by
  simp only [call, h]

/-- What a run tells with its value is lost: every value but -1 becomes 0. -/
theorem C55_verdict_lost_fails (m : Module) (argv : List Bytes) (p : Parsed) (hp : m.parse argv = .ok p) (c : Int) (out : Bytes)
    (hr : m.run p = .ok ⟨c, out⟩) : m.call argv = .ok ⟨if c = -1 then -1 else 0, out⟩ := by
  simp only [call, hp, hr, Out.ok_bind]
  split <;> rfl

/-- The program ends with 0 or -1 whatever module runs. -/
theorem C55_exit (ordered : List Module) (argv : List Bytes) (r : Ran) (h : main ordered argv = .ok r) : r.code = 0 ∨ r.code = -1 := by
  have hc : ∀ (m : Module) (ws : List Bytes), m.call ws = .ok r → r.code = 0 ∨ r.code = -1 := by
    intro m ws hm
    rw [call] at hm
    split at hm
    · obtain rfl := Out.ok.inj hm; exact Or.inr rfl
    · obtain ⟨x, -, hx⟩ := Out.bind_eq_ok.mp hm
      split at hx
      · obtain rfl := Out.ok.inj hx; exact Or.inr rfl
      · obtain rfl := Out.ok.inj hx; exact Or.inl rfl
  cases argv with
  | nil => obtain rfl := Out.ok.inj h; exact Or.inl rfl
  | cons cmd argv =>
    rw [main] at h
    split at h
    · obtain rfl := Out.ok.inj h; exact Or.inl rfl
    · split at h
      · obtain rfl := Out.ok.inj h; exact Or.inr rfl
      · exact hc _ _ h

/-- The first word chooses the module, if no two modules share a name and the name does not begin with `help`. -/
theorem C55_dispatch (ordered : List Module) (hd : (ordered.map Module.name).Nodup) (m : Module) (hm : m ∈ ordered)
    (hh : m.name.take 4 ≠ ascii "help") (argv : List Bytes) : main ordered (m.name :: argv) = m.call argv := by
  have hf : find ordered m.name = some m := by
    rw [find]
    have hd' : (ordered.reverse.map Module.name).Nodup := by rw [List.map_reverse]; exact List.nodup_reverse.mpr hd
    have hm' : m ∈ ordered.reverse := List.mem_reverse.mpr hm
    generalize ordered.reverse = l at hd' hm'
    induction l with
    | nil => simp at hm'
    | cons x l ih =>
      rw [List.map_cons, List.nodup_cons] at hd'
      rcases List.mem_cons.mp hm' with rfl | hml
      · simp
      · have hne : x.name ≠ m.name := fun e => hd'.1 (e ▸ List.mem_map_of_mem hml)
        rw [List.find?_cons_of_neg (by simpa using hne)]
        exact ih hd'.2 hml
  rw [main, if_neg hh, hf]

/-- Every first word that begins with `help` prints help, and a module of such a name can never be run. -/
theorem C55_help_shadows_fails (ordered : List Module) (rest : Bytes) (argv : List Bytes) :
    main ordered ((ascii "help" ++ rest) :: argv) = .ok ⟨0, []⟩ := by
  rw [main, if_pos]
  rw [List.take_append_of_le_length (by decide +kernel)]
  decide +kernel

/-- A name that no module has: nothing runs. -/
theorem C55_unknown (ordered : List Module) (cmd : Bytes) (argv : List Bytes) (hh : cmd.take 4 ≠ ascii "help")
    (h : cmd ∉ ordered.map Module.name) : main ordered (cmd :: argv) = .ok ⟨-1, []⟩ := by
  have : find ordered cmd = none := by
    rw [find, List.find?_eq_none]
    intro x hx hc
    exact h (by rw [← of_decide_eq_true hc]; exact List.mem_map_of_mem (List.mem_reverse.mp hx))
  rw [main, if_neg hh, this]

/-- A module for the examples: two positional arguments, two options, one flag. -/
private def sample : Module :=
  ⟨ascii "sign-file", [ascii "key", ascii "file"], [(ascii "-c", ascii "ZLIB"), (ascii "-h", ascii "SHA1")], [(ascii "-a", true)],
    fun p => .ok ⟨if p.flags (ascii "-a") = some true then 0 else 1, (p.args (ascii "file")).getD []⟩⟩

private def sampleLine : Line :=
  ⟨[.word (ascii "k"), .flag (ascii "-a"), .opt (ascii "-h") (ascii "MD5"), .opt (ascii "-h") (ascii "-a")], some [ascii "-c"]⟩

/-- The hypotheses of `C55_reads` hold: the sample reads `sign-file k -a -h MD5 -h -a -- -c`. -/
example : sample.constructs = true ∧ sampleLine.fits sample.opts sample.flags ∧ [45, 45] ∉ sampleLine.verbatim.getD [] ∧
    sample.positional.length ≤ sampleLine.words.length := by
  refine ⟨by decide +kernel, ?_, by decide +kernel, by decide +kernel⟩
  intro i hi
  simp only [sampleLine, List.mem_cons, List.not_mem_nil, or_false] at hi
  rcases hi with rfl | rfl | rfl | rfl <;> simp only [Item.fits] <;> decide +kernel

/-- And it is read so: the flag is off, the hash is the one given last, and `-c` is a file because of the double dash. -/
example : ∃ p, sample.parse sampleLine.spell = .ok p ∧ p.args (ascii "file") = some (ascii "-c") ∧ p.args (ascii "-h") = some (ascii "-a") ∧
    p.args (ascii "-c") = some (ascii "ZLIB") ∧ p.flags (ascii "-a") = some false := by
  obtain ⟨p, h1, h2, h3, h4, -, -⟩ := C55_reads sample (by decide +kernel) sampleLine (by
    intro i hi
    simp only [sampleLine, List.mem_cons, List.not_mem_nil, or_false] at hi
    rcases hi with rfl | rfl | rfl | rfl <;> simp only [Item.fits] <;> decide +kernel) (by decide +kernel) (by decide +kernel)
  refine ⟨p, h1, (h2 1 (by decide +kernel)).trans (by decide +kernel), (h3 _ (ascii "SHA1") (by decide +kernel)).trans (by decide +kernel),
    (h3 _ (ascii "ZLIB") (by decide +kernel)).trans (by decide +kernel), (h4 _ true (by decide +kernel)).trans (by decide +kernel)⟩

/-- The hypotheses of `C55_too_few`, `C55_no_value` and `C55_surplus_fails` hold. -/
example : (Line.mk [.word (ascii "k")] none).words.length < sample.positional.length ∧
    sample.parse [ascii "k", ascii "-h"] = .error (ascii "-h") ∧ sample.parse [ascii "k"] = .error (ascii "file") :=
  ⟨by decide +kernel, C55_no_value sample (by decide +kernel) [.word (ascii "k")] (by
      intro i hi
      obtain rfl := List.mem_singleton.mp hi
      simp only [Item.fits]; decide +kernel) (ascii "-h") (by decide +kernel) (by decide +kernel),
    C55_too_few sample (by decide +kernel) ⟨[.word (ascii "k")], none⟩ (by
      intro i hi
      obtain rfl := List.mem_singleton.mp hi
      simp only [Item.fits]; decide +kernel) (by simp) (by decide +kernel)⟩

/-- `C55_verdict_lost_fails` on the sample: the run returns 1 and the program 0. -/
example : main [sample] [ascii "sign-file", ascii "k", ascii "-a", ascii "f"] = .ok ⟨0, ascii "f"⟩ := by
  have hl : (Line.mk [.word (ascii "k"), .flag (ascii "-a"), .word (ascii "f")] none).fits sample.opts sample.flags := by
    intro i hi
    simp only [List.mem_cons, List.not_mem_nil, or_false] at hi
    rcases hi with rfl | rfl | rfl <;> simp only [Item.fits] <;> decide +kernel
  obtain ⟨p, h1, h2, h3, h4, -, -⟩ := C55_reads sample (by decide +kernel) _ hl (by simp) (by decide +kernel)
  have g1 : p.flags (ascii "-a") = some false := (h4 _ true (by decide +kernel)).trans (by decide +kernel)
  have g2 : p.args (ascii "file") = some (ascii "f") := (h2 1 (by decide +kernel)).trans (by decide +kernel)
  have hr : sample.run p = .ok ⟨1, ascii "f"⟩ := by simp [sample, g1, g2]
  have hd := C55_dispatch [sample] (by simp) sample (by simp) (by decide +kernel) [ascii "k", ascii "-a", ascii "f"]
  exact hd.trans (C55_verdict_lost_fails sample _ p h1 1 (ascii "f") hr)

end OpenPGP.Cli
