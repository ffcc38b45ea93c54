import Verif.Spec.Compress
import Mathlib.Data.List.Basic

/-!
# A small compressor that keeps the promises of zlib and bzip2

Runs of equal octets are written as count and octet; a zero ends the stream. It shows that the promises can be met.
-/
namespace OpenPGP.Demo

/-- Where a reader of such a stream is. -/
inductive Mode where
  | tag
  | octet (n : UInt8)
  | done
  | bad
  deriving DecidableEq

/-- Reads as much as there is: where it stops, how many octets it used, and what they stand for. A count of 255 with the octet 255 is not
used by anybody and counts as damaged. -/
def parse : Mode → Bytes → Mode × Nat × Bytes
  | .tag, [] => (.tag, 0, [])
  | .tag, n :: r => if n = 0 then (.done, 1, []) else ((parse (.octet n) r).1, (parse (.octet n) r).2.1 + 1, (parse (.octet n) r).2.2)
  | .octet n, [] => (.octet n, 0, [])
  | .octet n, b :: r => if n = 255 ∧ b = 255 then (.bad, 1, []) else
    ((parse .tag r).1, (parse .tag r).2.1 + 1, List.replicate n.toNat b ++ (parse .tag r).2.2)
  | .done, _ => (.done, 0, [])
  | .bad, _ => (.bad, 0, [])

/-- The octets `z` are a stream for `d`. -/
def Form (d z : Bytes) : Prop := parse .tag z = (.done, z.length, d)

theorem parse_used : ∀ (m : Mode) (a : Bytes), (parse m a).2.1 ≤ a.length
  | .tag, [] => by simp [parse]
  | .tag, n :: r => by
    rw [parse]
    split
    · simp
    · have := parse_used (.octet n) r; simp; omega
  | .octet n, [] => by simp [parse]
  | .octet n, b :: r => by
    rw [parse]
    split
    · simp
    · have := parse_used .tag r; simp; omega
  | .done, _ => by simp [parse]
  | .bad, _ => by simp [parse]

/-- Octets behind. -/
theorem parse_append : ∀ (m : Mode) (a b : Bytes),
    if (parse m a).1 = .done ∨ (parse m a).1 = .bad then parse m (a ++ b) = parse m a
    else (parse m a).2.1 = a.length ∧
      parse m (a ++ b) = ((parse (parse m a).1 b).1, a.length + (parse (parse m a).1 b).2.1, (parse m a).2.2 ++ (parse (parse m a).1 b).2.2)
  | .tag, [], b => by simp [parse]
  | .tag, n :: r, b => by
    have ih := parse_append (.octet n) r b
    rw [List.cons_append, parse, parse]
    by_cases h : n = 0
    · simp [h]
    · simp only [h, if_false]
      split
      · rename_i h'; rw [if_pos h'] at ih; rw [ih]
      · rename_i h'
        rw [if_neg h'] at ih
        refine ⟨by simp [ih.1], ?_⟩
        rw [ih.2]
        simp only [List.length_cons, Prod.mk.injEq, true_and, and_true]
        omega
  | .octet n, [], b => by simp [parse]
  | .octet n, c :: r, b => by
    have ih := parse_append .tag r b
    rw [List.cons_append, parse, parse]
    by_cases h : n = 255 ∧ c = 255
    · simp [h]
    · simp only [h, if_false]
      split
      · rename_i h'; rw [if_pos h'] at ih; rw [ih]
      · rename_i h'
        rw [if_neg h'] at ih
        refine ⟨by simp [ih.1], ?_⟩
        rw [ih.2]
        simp only [List.length_cons, Prod.mk.injEq, true_and, List.append_assoc, and_true]
        omega
  | .done, a, b => by simp [parse]
  | .bad, a, b => by simp [parse]

/-- The octets used are all that counts. -/
theorem parse_take : ∀ (m : Mode) (a : Bytes), (parse m a).1 ≠ .bad → parse m (a.take (parse m a).2.1) = parse m a
  | .tag, [], _ => by simp [parse]
  | .tag, n :: r, h => by
    by_cases h0 : n = 0
    · simp [parse, h0]
    · have e : parse .tag (n :: r) = ((parse (.octet n) r).1, (parse (.octet n) r).2.1 + 1, (parse (.octet n) r).2.2) := by simp [parse, h0]
      rw [e] at h ⊢
      have ih := parse_take (.octet n) r h
      rw [List.take_succ_cons, parse, if_neg h0, ih]
  | .octet n, [], _ => by simp [parse]
  | .octet n, b :: r, h => by
    by_cases h0 : n = 255 ∧ b = 255
    · simp [parse, h0] at h
    · have e : parse (.octet n) (b :: r) = ((parse .tag r).1, (parse .tag r).2.1 + 1, List.replicate n.toNat b ++ (parse .tag r).2.2) := by simp [parse, h0]
      rw [e] at h ⊢
      have ih := parse_take .tag r h
      rw [List.take_succ_cons, parse, if_neg h0, ih]
  | .done, _, _ => by simp [parse]
  | .bad, _, h => by simp [parse] at h

theorem parse_bound : ∀ (m : Mode) (a : Bytes), (parse m a).2.2.length ≤ 255 * a.length
  | .tag, [] => by simp [parse]
  | .tag, n :: r => by
    rw [parse]
    split
    · simp
    · have := parse_bound (.octet n) r; simp; omega
  | .octet n, [] => by simp [parse]
  | .octet n, b :: r => by
    rw [parse]
    split
    · simp
    · have := parse_bound .tag r
      have := n.toNat_lt
      simp; omega
  | .done, _ => by simp [parse]
  | .bad, _ => by simp [parse]

theorem Form.run {d z : Bytes} (h : Form d z) (n b : UInt8) (hn : n ≠ 0) (hb : ¬ (n = 255 ∧ b = 255)) :
    Form (List.replicate n.toNat b ++ d) (n :: b :: z) := by
  rw [Form] at h ⊢
  rw [parse, if_neg hn, parse, if_neg hb, h]
  rfl

/-! ### Compressing -/

/-- Every octet on its own. -/
def flat (d : Bytes) : Bytes := d.flatMap fun b => [1, b]

theorem parse_flat (m : Mode) (hm : m = .tag) (d : Bytes) : parse m (flat d ++ [0]) = (.done, (flat d ++ [0]).length, d) := by
  subst hm
  induction d with
  | nil => rfl
  | cons b d ih =>
    have e : flat (b :: d) ++ [0] = 1 :: b :: (flat d ++ [0]) := rfl
    rw [e, parse, if_neg (by decide), parse, if_neg (by intro h; exact absurd h.1 (by decide)), ih]
    rfl

theorem form_flat (d : Bytes) : Form d (flat d ++ [0]) := parse_flat .tag rfl d

inductive Packing where
  | running (pending : Bytes)
  | finishing (pending : Bytes)
  | ended

/-- The compressor. -/
def pack (lib : Lib) : Coder Packing where
  init := some (.running [])
  call s finish input room := match s with
    | .running p =>
      if finish then
        let q := p ++ flat input ++ [0]
        if q.drop room = [] then ⟨.streamEnd, input.length, q.take room, .ended⟩
        else ⟨.ok, input.length, q.take room, .finishing (q.drop room)⟩
      else ⟨.ok, input.length, (p ++ flat input).take room, .running ((p ++ flat input).drop room)⟩
    | .finishing q =>
      if q.drop room = [] then ⟨.streamEnd, 0, q.take room, .ended⟩
      else ⟨.ok, 0, q.take room, .finishing (q.drop room)⟩
    | .ended => ⟨lib.again, 0, [], .ended⟩

/-- What the state of the compressor says about its history. -/
def Packing.Good (x y : Bytes) : Phase → Packing → Prop
  | .running, .running p => y ++ p = flat x
  | .finishing rest, .finishing q => rest = [] ∧ q ≠ [] ∧ y ++ q = flat x ++ [0]
  | .ended, .ended => y = flat x ++ [0]
  | _, _ => False

theorem flat_append (a b : Bytes) : flat (a ++ b) = flat a ++ flat b := List.flatMap_append

theorem pack_good (lib : Lib) {s x y ph} (h : (pack lib).Compressing (.running []) s x y ph) : s.Good x y ph := by
  induction h with
  | start => rfl
  | @run s x y input room h hr ih =>
    cases s <;> simp only [Packing.Good] at ih
    rename_i p
    simp only [pack, Bool.false_eq_true, if_false, Packing.Good, List.take_length]
    rw [List.append_assoc, List.take_append_drop, flat_append, ← ih, List.append_assoc]
  | @finish s x y ph input room h hph hr ih =>
    cases s with
    | running p =>
      cases ph <;> simp only [Packing.Good] at ih
      simp only [pack, if_true]
      by_cases hd : (p ++ flat input ++ [0]).drop room = []
      · simp only [hd, if_true, Packing.Good, List.take_length]
        rw [List.take_of_length_le (List.drop_eq_nil_iff.mp hd), flat_append, ← ih]
        simp
      · simp only [hd, if_false, reduceCtorEq, Packing.Good, List.take_length, List.drop_length]
        refine ⟨trivial, by simpa using hd, ?_⟩
        rw [List.append_assoc, List.take_append_drop, flat_append, ← ih]
        simp
    | finishing q =>
      cases ph <;> simp only [Packing.Good] at ih
      rename_i rest
      obtain ⟨rfl, hq, he⟩ := ih
      have hin : input = [] := by rcases hph with h | h <;> simp at h; exact h
      subst hin
      simp only [pack]
      by_cases hd : q.drop room = []
      · simp only [hd, if_true, Packing.Good, List.take_nil, List.append_nil]
        rw [List.take_of_length_le (List.drop_eq_nil_iff.mp hd), he]
      · simp only [hd, if_false, reduceCtorEq, Packing.Good, List.take_nil, List.drop_nil, List.append_nil]
        refine ⟨trivial, by simpa using hd, ?_⟩
        rw [List.append_assoc, List.take_append_drop, he]
    | ended =>
      cases ph <;> simp only [Packing.Good] at ih
      rcases hph with h | h <;> simp at h

theorem flat_length (d : Bytes) : (flat d).length = 2 * d.length := by
  induction d with
  | nil => rfl
  | cons b d ih => simp only [flat, List.flatMap_cons, List.length_append, List.length_cons, List.length_nil] at ih ⊢; omega

theorem pack_ok (lib : Lib) : Compressor lib Form (pack lib) := by
  have inv : ∀ {start s x y ph}, (pack lib).init = some start → (pack lib).Compressing start s x y ph → s.Good x y ph := by
    intro start s x y ph hi h
    obtain rfl := Option.some.inj hi
    exact pack_good lib h
  -- the states calls are made in
  have states : ∀ {s : Packing} {x y ph finish input}, s.Good x y ph → (ph = .running ∨ finish = true ∧ ph = .finishing input) →
      (∃ p, s = .running p ∧ y ++ p = flat x) ∨ (∃ q, s = .finishing q ∧ finish = true ∧ input = [] ∧ q ≠ [] ∧ y ++ q = flat x ++ [0]) := by
    rintro s x y ph finish input hg (rfl | ⟨rfl, rfl⟩)
    · cases s <;> simp only [Packing.Good] at hg
      exact Or.inl ⟨_, rfl, hg⟩
    · cases s <;> simp only [Packing.Good] at hg
      exact Or.inr ⟨_, rfl, rfl, hg.1, hg.2.1, hg.2.2⟩
  refine { opens := ⟨_, rfl⟩, sizes := ?_, legal := ?_, busy := ?_, finishes := ?_, complete := ?_, eager := ?_, bounded := ?_, after := ?_ }
  · intro start s x y ph hi h finish input room hr hph
    rcases states (inv hi h) hph with ⟨p, rfl, -⟩ | ⟨q, rfl, rfl, rfl, -⟩
    · simp only [pack]
      split
      · split <;> simp
      · simp
    · simp only [pack]
      split <;> simp
  · intro start s x y ph hi h finish input room hr hph
    rcases states (inv hi h) hph with ⟨p, rfl, -⟩ | ⟨q, rfl, rfl, rfl, -⟩
    · simp only [pack]
      split
      · split <;> cases lib <;> simp [Lib.misuse]
      · cases lib <;> simp [Lib.misuse]
    · simp only [pack]
      split <;> cases lib <;> simp [Lib.misuse]
  · intro start s x y ph hi h finish input room hr hph hl
    rcases states (inv hi h) hph with ⟨p, rfl, -⟩ | ⟨q, rfl, rfl, rfl, -⟩
    · simp only [pack]
      split
      · split <;> rfl
      · rfl
    · simp only [pack]
      split <;> rfl
  · intro start s x y ph hi h input room hr hph hl
    rcases states (finish := true) (inv hi h) (hph.imp_right fun h => ⟨rfl, h⟩) with ⟨p, rfl, -⟩ | ⟨q, rfl, -, rfl, -⟩
    · simp only [pack, if_true] at hl ⊢
      split at hl
      · rename_i hd; rw [if_pos hd]
      · rename_i hd
        simp only [List.length_take] at hl
        exact absurd (List.drop_eq_nil_iff.mpr (by omega)) hd
    · simp only [pack] at hl ⊢
      split at hl
      · rename_i hd; rw [if_pos hd]
      · rename_i hd
        simp only [List.length_take] at hl
        exact absurd (List.drop_eq_nil_iff.mpr (by omega)) hd
  · intro start s x y ph hi h finish input room hr hph hend
    rcases states (inv hi h) hph with ⟨p, rfl, he⟩ | ⟨q, rfl, rfl, rfl, hq, he⟩
    · cases finish
      · simp [pack] at hend
      · simp only [pack, if_true] at hend ⊢
        split at hend
        · rename_i hd
          simp only [hd, if_true, true_and]
          rw [List.take_of_length_le (List.drop_eq_nil_iff.mp hd)]
          have : y ++ (p ++ flat input ++ [0]) = flat (x ++ input) ++ [0] := by rw [flat_append, ← he]; simp
          rw [this]
          exact form_flat _
        · simp at hend
    · simp only [pack] at hend ⊢
      split at hend
      · rename_i hd
        simp only [hd, if_true, true_and, List.length_nil, List.append_nil]
        rw [List.take_of_length_le (List.drop_eq_nil_iff.mp hd), he]
        exact form_flat _
      · simp at hend
  · intro start s x y _ hi input h room hr
    rcases states (finish := true) (inv hi h) (Or.inr ⟨rfl, rfl⟩) with ⟨p, rfl, -⟩ | ⟨q, rfl, -, rfl, hq, -⟩
    · exact absurd (inv hi h) (by simp [Packing.Good])
    · simp only [pack]
      have : q.take room ≠ [] := by
        intro h'
        have := congrArg List.length h'
        rw [List.length_take, List.length_nil] at this
        have := List.length_pos_iff.mpr hq
        omega
      split <;> exact this
  · refine ⟨fun n => 2 * n + 1, fun a b h => by simp only; omega, ?_⟩
    intro start s x y ph hi h
    have hg := inv hi h
    simp only
    cases ph <;> cases s <;> simp only [Packing.Good] at hg
    · have := congrArg List.length hg
      rw [List.length_append, flat_length] at this
      omega
    · have := congrArg List.length hg.2.2
      rw [List.length_append, List.length_append, flat_length, List.length_singleton] at this
      omega
    · rw [hg, List.length_append, flat_length, List.length_singleton]
  · intro start s x y hi h room hr
    have hg := inv hi h
    cases s <;> simp only [Packing.Good] at hg
    exact ⟨rfl, rfl, rfl⟩

/-! ### Decompressing -/

structure Unpacking where
  mode : Mode
  pending : Bytes
  ended : Bool

/-- The decompressor. -/
def unpack (lib : Lib) : Coder Unpacking where
  init := some ⟨.tag, [], false⟩
  call s _ input room :=
    if s.ended then ⟨lib.again, 0, [], s⟩
    else
      let p := parse s.mode input
      let q := s.pending ++ p.2.2
      if p.1 = .bad then ⟨.dataError, p.2.1, [], ⟨.bad, [], false⟩⟩
      else if p.1 = .done ∧ q.drop room = [] then ⟨.streamEnd, p.2.1, q.take room, ⟨.done, [], true⟩⟩
      else ⟨.ok, p.2.1, q.take room, ⟨p.1, q.drop room, false⟩⟩

/-- What the state of the decompressor says about its history. -/
def Unpacking.Good (x y : Bytes) (e : Bool) (s : Unpacking) : Prop :=
  s.ended = e ∧ s.mode ≠ .bad ∧ parse .tag x = (s.mode, x.length, y ++ s.pending) ∧ (s.mode = .done → e = false → s.pending ≠ []) ∧
    (e = true → s.mode = .done ∧ s.pending = [])

/-- One more piece of input. -/
theorem parse_next {x y input : Bytes} {s : Unpacking} (hg : s.Good x y false) (hb : (parse s.mode input).1 ≠ .bad) :
    parse .tag (x ++ input.take (parse s.mode input).2.1)
      = ((parse s.mode input).1, (x ++ input.take (parse s.mode input).2.1).length, y ++ (s.pending ++ (parse s.mode input).2.2)) := by
  obtain ⟨-, h2, h3, -, -⟩ := hg
  have happ := parse_append .tag x (input.take (parse s.mode input).2.1)
  have hu := parse_used s.mode input
  rw [h3] at happ
  simp only at happ
  by_cases hd : s.mode = .done
  · rw [hd] at happ hu ⊢
    simp only [parse, List.take_zero, List.append_nil] at happ ⊢
    rw [h3, hd]
  · rw [if_neg (by simp [hd, h2])] at happ
    rw [happ.2, parse_take _ _ hb]
    rw [List.length_append, List.length_take, Nat.min_eq_left hu, List.append_assoc]

theorem unpack_good (lib : Lib) {s x y e} (h : (unpack lib).Decompressing lib ⟨.tag, [], false⟩ s x y e) : s.Good x y e := by
  induction h with
  | start => exact ⟨rfl, by decide, rfl, by simp, by simp⟩
  | @step s x y input room h hr hf ih =>
    have hend : s.ended = false := ih.1
    by_cases hb : (parse s.mode input).1 = .bad
    · exfalso
      simp only [unpack, hend, Bool.false_eq_true, if_false, hb, if_true] at hf
      cases lib <;> simp [Lib.fine] at hf
    · have hn := parse_next ih hb
      simp only [unpack, hend, Bool.false_eq_true, if_false, hb]
      by_cases hd : (parse s.mode input).1 = .done ∧ (s.pending ++ (parse s.mode input).2.2).drop room = []
      · simp only [hd, and_self, if_true, decide_true]
        have ht := List.take_of_length_le (List.drop_eq_nil_iff.mp hd.2)
        refine ⟨rfl, by simp, ?_, by simp, by simp⟩
        rw [hn, ht]
        simp [hd.1]
      · rw [if_neg hd]
        simp only [reduceCtorEq, decide_false]
        refine ⟨rfl, hb, ?_, ?_, by simp⟩
        · rw [hn, List.append_assoc, List.take_append_drop]
        · intro h1 _ h2
          exact hd ⟨h1, h2⟩
  | @idle s x y input room h hr ih =>
    have hend : s.ended = true := ih.1
    simp only [unpack, hend, if_true]
    exact ih

/-- Along a stream nothing is damaged, and what is read belongs to the stream. -/
theorem parse_along {x y input d z : Bytes} {s : Unpacking} (hg : s.Good x y false) (hf : Form d z) (ha : Along (x ++ input) z) :
    (parse s.mode input).1 ≠ .bad ∧ x ++ input.take (parse s.mode input).2.1 <+: z ∧ y ++ (s.pending ++ (parse s.mode input).2.2) <+: d ∧
      ((parse s.mode input).1 = .done → y ++ (s.pending ++ (parse s.mode input).2.2) = d ∧ x ++ input.take (parse s.mode input).2.1 = z) ∧
      (z <+: x ++ input → (parse s.mode input).1 = .done) := by
  have hu := parse_used s.mode input
  have hparse : parse .tag (x ++ input) = ((parse s.mode input).1, x.length + (parse s.mode input).2.1, y ++ (s.pending ++ (parse s.mode input).2.2)) := by
    obtain ⟨-, h2, h3, -, -⟩ := hg
    have happ := parse_append .tag x input
    rw [h3] at happ
    simp only at happ
    by_cases hd : s.mode = .done
    · rw [if_pos (Or.inl hd)] at happ
      rw [happ, hd]
      simp [parse]
    · rw [if_neg (by simp [hd, h2])] at happ
      rw [happ.2, List.append_assoc]
  have htake : ∀ k, x ++ input.take k = (x ++ input).take (x.length + k) := by
    intro k; rw [List.take_length_add_append]
  rcases ha with ⟨t, rfl⟩ | ⟨t, ht⟩
  · -- the input is part of the stream
    have happ := parse_append .tag (x ++ input) t
    rw [hparse] at happ
    simp only at happ
    rw [hf] at happ
    by_cases hdb : (parse s.mode input).1 = .done ∨ (parse s.mode input).1 = .bad
    · rw [if_pos hdb] at happ
      simp only [Prod.mk.injEq] at happ
      obtain ⟨e1, e2, e3⟩ := happ
      have hl : (x ++ input ++ t).length = x.length + (parse s.mode input).2.1 := e2
      simp only [List.length_append] at hl
      have ht0 : t = [] := List.length_eq_zero_iff.mp (by omega)
      have hui : (parse s.mode input).2.1 = input.length := by omega
      subst ht0
      rw [hui, List.take_length, List.append_nil]
      exact ⟨by rw [← e1]; decide, List.prefix_rfl, e3 ▸ List.prefix_rfl, fun _ => ⟨e3.symm, rfl⟩, fun _ => e1.symm⟩
    · rw [if_neg hdb] at happ
      obtain ⟨e0, e1⟩ := happ
      simp only [Prod.mk.injEq] at e1
      obtain ⟨e1, e2, e3⟩ := e1
      push Not at hdb
      refine ⟨hdb.2, ?_, ?_, fun h => absurd h hdb.1, ?_⟩
      · rw [htake]; exact (List.take_prefix _ _).trans (List.prefix_append _ _)
      · rw [e3]; exact List.prefix_append _ _
      · intro hz
        have ht0 : t = [] := by
          have := hz.length_le
          simp only [List.length_append] at this
          exact List.length_eq_zero_iff.mp (by omega)
        subst ht0
        exfalso
        have : (parse (parse s.mode input).1 []).1 = (parse s.mode input).1 := by
          cases (parse s.mode input).1 <;> rfl
        exact hdb.1 (this ▸ e1.symm)
  · -- the stream is part of the input
    have happ := parse_append .tag z t
    rw [hf, ht] at happ
    simp only [true_or, if_true] at happ
    rw [hparse] at happ
    simp only [Prod.mk.injEq] at happ
    obtain ⟨e1, e2, e3⟩ := happ
    have hz : x ++ input.take (parse s.mode input).2.1 = z := by
      rw [htake, e2, ← ht, List.take_left]
    exact ⟨by rw [e1]; decide, hz ▸ List.prefix_rfl, e3 ▸ List.prefix_rfl, fun _ => ⟨e3, hz⟩, fun _ => e1⟩

theorem unpack_ok (lib : Lib) : Decompressor lib Form (unpack lib) := by
  have inv : ∀ {start s x y e}, (unpack lib).init = some start → (unpack lib).Decompressing lib start s x y e → s.Good x y e := by
    intro start s x y e hi h
    obtain rfl := Option.some.inj hi
    exact unpack_good lib h
  have hfine : ∀ rc, rc = .ok ∨ rc = .streamEnd → lib.fine rc := by
    intro rc h
    cases lib
    · exact h.imp_right Or.inr
    · exact h
  refine { opens := ⟨_, rfl⟩, nonempty := ?_, sizes := ?_, legal := ?_, busy := ?_, sound := ?_, reads := ?_, ends := ?_, bounded := ?_, after := ?_ }
  · intro d h
    simp [Form, parse] at h
  · intro start s x y hi h input room hr
    have hend : s.ended = false := (inv hi h).1
    have hu := parse_used s.mode input
    simp only [unpack, hend, Bool.false_eq_true, if_false]
    split
    · simp [hu]
    · split <;> simp [hu]
  · intro start s x y hi h input room hr
    have hend : s.ended = false := (inv hi h).1
    simp only [unpack, hend, Bool.false_eq_true, if_false]
    split
    · simp
    · split
      · exact Or.inl (hfine _ (Or.inr rfl))
      · exact Or.inl (hfine _ (Or.inl rfl))
  · intro start s x y hi h input room hr hf hne hl
    have hg := inv hi h
    have hend : s.ended = false := hg.1
    simp only [unpack, hend, Bool.false_eq_true, if_false] at hf hne hl ⊢
    by_cases hb : (parse s.mode input).1 = .bad
    · simp only [hb, if_true] at hf
      cases lib <;> simp [Lib.fine] at hf
    · simp only [hb, if_false] at hne hl ⊢
      by_cases hd : (parse s.mode input).1 = .done ∧ (s.pending ++ (parse s.mode input).2.2).drop room = []
      · simp [hd] at hne
      · simp only [hd, if_false] at hl ⊢
        rw [List.length_take] at hl
        have hnd : (parse s.mode input).1 ≠ .done := fun h => hd ⟨h, List.drop_eq_nil_iff.mpr (by omega)⟩
        have := parse_append s.mode input []
        rw [if_neg (by simp [hb, hnd])] at this
        exact this.1
  · intro start s x y hi h input room hr hrc
    have hg := inv hi h
    have hend : s.ended = false := hg.1
    simp only [unpack, hend, Bool.false_eq_true, if_false] at hrc ⊢
    by_cases hb : (parse s.mode input).1 = .bad
    · simp [hb] at hrc
    · simp only [hb, if_false] at hrc ⊢
      by_cases hd : (parse s.mode input).1 = .done ∧ (s.pending ++ (parse s.mode input).2.2).drop room = []
      · simp only [hd, and_self, if_true]
        rw [List.take_of_length_le (List.drop_eq_nil_iff.mp hd.2), Form, parse_next hg hb, hd.1]
      · rw [if_neg hd] at hrc; exact absurd hrc (by simp)
  · intro start s x y hi h input room hr d z hf ha
    have hg := inv hi h
    have hend : s.ended = false := hg.1
    obtain ⟨h1, h2, h3, h4, -⟩ := parse_along hg hf ha
    simp only [unpack, hend, Bool.false_eq_true, if_false, h1]
    by_cases hd : (parse s.mode input).1 = .done ∧ (s.pending ++ (parse s.mode input).2.2).drop room = []
    · simp only [hd, and_self, if_true]
      rw [List.take_of_length_le (List.drop_eq_nil_iff.mp hd.2)]
      exact ⟨hfine _ (Or.inr rfl), h2, h3, fun _ => h4 hd.1⟩
    · rw [if_neg hd]
      refine ⟨hfine _ (Or.inl rfl), h2, ?_, by simp⟩
      exact List.IsPrefix.trans ((List.prefix_append_right_inj y).mpr (List.take_prefix _ _)) h3
  · intro start s x y hi h input room hr d z hf hz hor
    have hg := inv hi h
    have hend : s.ended = false := hg.1
    obtain ⟨h1, h2, h3, h4, h5⟩ := parse_along hg hf (Or.inr hz)
    have hdone := h5 hz
    simp only [unpack, hend, Bool.false_eq_true, if_false, h1] at hor ⊢
    by_cases hd : (parse s.mode input).1 = .done ∧ (s.pending ++ (parse s.mode input).2.2).drop room = []
    · simp only [hd, and_self, if_true]
    · exfalso
      rw [if_neg hd] at hor
      apply hd
      refine ⟨hdone, List.drop_eq_nil_iff.mpr ?_⟩
      rcases hor with hor | hor
      · simp only at hor
        rw [← (h4 hdone).1] at hor
        have := congrArg List.length (List.append_cancel_left hor)
        rw [List.length_take] at this
        omega
      · simp only [List.length_take] at hor
        omega
  · refine ⟨fun n => 255 * n, fun a b h => by simp only; omega, ?_⟩
    intro start s x y e hi h
    have := parse_bound .tag x
    rw [(inv hi h).2.2.1] at this
    simp only [List.length_append] at this
    simp only; omega
  · intro start s x y hi h input room hr
    have hend : s.ended = true := (inv hi h).1
    simp [unpack, hend]

end OpenPGP.Demo
