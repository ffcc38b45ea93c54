import Verif.Model.Packets
import Verif.Lemmas.Tag5

namespace OpenPGP

/-! ## Loops that compare an absolute position with the body length -/

/-- Items written one after the other. -/
def joined {α : Type} (w : α → Bytes) (l : List α) : Bytes := l.flatMap w

theorem joined_cons {α : Type} (w : α → Bytes) (a : α) (l : List α) : joined w (a :: l) = w a ++ joined w l := by
  simp [joined]

theorem untilLoop_ok {α : Type} {item : Nat → Out (α × Nat)} {w : α → Bytes} {data : Bytes} {stop : Nat} (l : List α)
    (hi : ∀ a ∈ l, ∀ pos rest, data.drop pos = w a ++ rest → item pos = .ok (a, pos + (w a).length)) :
    ∀ (fuel pos : Nat) (rest : Bytes), data.drop pos = joined w l ++ rest → (l ≠ [] → pos + (joined w l.dropLast).length < stop) →
    stop ≤ pos + (joined w l).length → l.length < fuel →
    untilLoop item stop fuel pos = .ok (l, pos + (joined w l).length) := by
  induction l with
  | nil =>
    intro fuel pos rest _ _ h2 hf
    cases fuel with
    | zero => simp at hf
    | succ fuel =>
      simp only [joined, List.flatMap_nil, List.length_nil, Nat.add_zero] at h2 ⊢
      rw [untilLoop, if_neg (by omega)]
  | cons a l ih =>
    intro fuel pos rest hd h1 h2 hf
    cases fuel with
    | zero => simp at hf
    | succ fuel =>
      rw [joined_cons, List.append_assoc] at hd
      rw [joined_cons, List.length_append] at h2 ⊢
      have h1 := h1 (by simp)
      have hlt : pos < stop := by omega
      rw [untilLoop, if_pos hlt, hi a (by simp) pos _ hd, Out.ok_bind]
      dsimp only
      rw [ih (fun b hb => hi b (by simp [hb])) fuel _ rest (drop_add_of hd) _ (by omega) (by simpa using hf), Out.ok_bind]
      · simp only [Out.pure_eq, Nat.add_assoc]
      · intro hl
        rw [List.dropLast_cons_of_ne_nil hl, joined_cons, List.length_append] at h1
        omega

/-- If the loop's bound is reached before the last item, the loop stops before it. -/
theorem untilLoop_early {α : Type} {item : Nat → Out (α × Nat)} {w : α → Bytes} {data : Bytes} {stop : Nat} (l : List α)
    (hi : ∀ a ∈ l, ∀ pos rest, data.drop pos = w a ++ rest → item pos = .ok (a, pos + (w a).length)) :
    ∀ (fuel pos : Nat) (rest : Bytes), data.drop pos = joined w l ++ rest → l ≠ [] →
    stop ≤ pos + (joined w l.dropLast).length → l.length < fuel →
    ∃ l' p, untilLoop item stop fuel pos = .ok (l', p) ∧ p ≤ pos + (joined w l.dropLast).length := by
  induction l with
  | nil => intro fuel pos rest _ h; exact absurd rfl h
  | cons a l ih =>
    intro fuel pos rest hd _ h2 hf
    cases fuel with
    | zero => simp at hf
    | succ fuel =>
      by_cases hlt : pos < stop
      · rw [joined_cons, List.append_assoc] at hd
        by_cases hl : l = []
        · subst hl
          simp [joined] at h2
          omega
        · rw [List.dropLast_cons_of_ne_nil hl, joined_cons, List.length_append] at h2 ⊢
          obtain ⟨l', p, e, hp⟩ := ih (fun b hb => hi b (by simp [hb])) fuel (pos + (w a).length) rest (drop_add_of hd) hl
            (by omega) (by simpa using hf)
          refine ⟨a :: l', p, ?_, by omega⟩
          rw [untilLoop, if_pos hlt, hi a (by simp) pos _ hd, Out.ok_bind]
          dsimp only
          rw [e]; rfl
      · exact ⟨[], pos, by rw [untilLoop, if_neg hlt], by omega⟩

theorem joined_length_ge {α : Type} (w : α → Bytes) (l : List α) (h : ∀ a ∈ l, w a ≠ []) : l.length ≤ (joined w l).length := by
  induction l with
  | nil => simp
  | cons a l ih =>
    have h1 := ih (fun q hq => h q (by simp [hq]))
    have h2 : 0 < (w a).length := List.length_pos_iff.mpr (h a (by simp))
    rw [joined_cons, List.length_append, List.length_cons]
    omega

theorem joined_dropLast {α : Type} (w : α → Bytes) (l : List α) (h : l ≠ []) :
    joined w l = joined w l.dropLast ++ w (l.getLast h) := by
  conv_lhs => rw [← List.dropLast_concat_getLast h]
  simp [joined]

/-! ## String packets -/

theorem tagRead_string {fresh data body rest : Bytes} {pos : Nat} {part : Bool} (hp : pos ≤ data.length)
    (hd : data.drop pos = body ++ rest) (h0 : body = [] → fresh = []) :
    tagRead fresh Body.readString ⟨data, pos, body.length, part⟩ = .ok body := by
  by_cases h : body = []
  · subst h
    rw [tagRead, if_pos (by rfl), h0 rfl]
  · rw [tagRead, if_neg (by simpa using h)]
    simp only [Body.readString, substr_drop hp hd rfl, Out.ok_bind, Out.pure_eq, bne_self_eq_false, Bool.and_false]
    rfl

theorem tagRead_octetString {fresh : UInt8 × Bytes} {data s rest : Bytes} {c : UInt8} {pos : Nat} {part : Bool}
    (hd : data.drop pos = (c :: s) ++ rest) :
    tagRead fresh Body.readOctetString ⟨data, pos, (c :: s).length, part⟩ = .ok (c, s) := by
  rw [tagRead, if_neg (by simp)]
  have hs : subSz (c :: s).length 1 = s.length := by simp [subSz]
  have h1 : data.drop (pos + 1) = s ++ rest := drop_succ_of (c := c) (by simpa using hd)
  have hl : pos + 1 ≤ data.length := le_of_drop_cons (c := c) (rest := s ++ rest) (by simpa using hd)
  simp only [Body.readOctetString, hs]
  rw [charAt_drop (c := c) (rest := s ++ rest) (by simpa using hd)]
  rw [Out.ok_bind, substr_drop hl h1 rfl, Out.ok_bind]
  simp

/-! ## Tag 1 -/

namespace Tag1

theorem readMPI_item {data : Bytes} (l : List Nat) (hb : ∀ a ∈ l, bitsize a ≤ 65528) :
    ∀ a ∈ l, ∀ pos rest, data.drop pos = mpiOctets a ++ rest → readMPI data pos = .ok (a, pos + (mpiOctets a).length) :=
  fun a ha _ _ hd => readMPI_at hd (hb a ha)

theorem actualRead_eq (t : Tag1) (hk : t.keyid.length = 8) {data : Bytes} {pos length : Nat} {rest : Bytes}
    (hd : data.drop pos = t.raw ++ rest) :
    data.drop (pos + 10) = writeMPIs t.mpi ++ rest ∧
    actualRead data pos length = (untilLoop (readMPI data) length (length + 1) (pos + 10) >>= fun x =>
      .ok (⟨3, t.keyid, t.pka, x.1⟩, x.2)) := by
  have hd0 : data.drop pos = 3 :: (t.keyid ++ ([t.pka] ++ (writeMPIs t.mpi ++ rest))) := by rw [hd]; simp [raw]
  have hd1 := drop_succ_of hd0
  have hl := le_of_drop_cons hd0
  have hd2 : data.drop (pos + 9) = t.pka :: (writeMPIs t.mpi ++ rest) := by
    have := drop_field hd1 hk
    simpa [Nat.add_assoc] using this
  have hd3 := drop_succ_of hd2
  refine ⟨hd3, ?_⟩
  simp only [actualRead, charAt_drop hd0, Out.ok_bind, substr_drop hl hd1 hk, charAt_drop hd2]
  rfl

end Tag1

/-! ## Tag 3 -/

namespace Tag3

/-- A symmetric-key encrypted session key packet as it is read: an S2K specifier, an optional non-empty encrypted key. -/
def wf (t : Tag3) : Prop := (∃ s, t.s2k = some s ∧ s.wf) ∧ t.esk ≠ some []

theorem readAt_ok (t : Tag3) (h : t.wf) {data : Bytes} {pos : Nat} {rest : Bytes} {part : Bool}
    (hd : data.drop pos = t.raw ++ rest) : readAt ⟨data, pos, t.raw.length, part⟩ = .ok t := by
  obtain ⟨version, sym, s2k, esk⟩ := t
  obtain ⟨⟨s, hs, hw⟩, he⟩ := h
  simp only at hs he
  subst hs
  have hraw : ∃ e : Bytes, (⟨version, sym, some s, esk⟩ : Tag3).raw = version :: (sym :: (s.raw ++ e)) ∧
      (match esk with | some e => e | none => []) = e := by
    cases esk <;> simp [raw]
  obtain ⟨e, hr, he'⟩ := hraw
  rw [hr] at hd ⊢
  have hd0 : data.drop pos = version :: (sym :: (s.raw ++ (e ++ rest))) := by rw [hd]; simp
  have hd1 := drop_succ_of hd0
  have hd2 := drop_succ_of hd1
  have hl2 := le_of_drop_cons hd1
  have hs := S2K.read_at s hw hd2
  have hd3 := drop_add_of hd2
  have hl3 := le_of_drop hl2 hd2
  rw [readAt, tagRead, if_neg (by simp)]
  simp only [actualRead, charAt_drop hd0, charAt_drop hd1, Out.ok_bind, hs]
  have hlen : pos + (version :: sym :: (s.raw ++ e)).length = pos + 1 + 1 + s.raw.length + e.length := by
    simp only [List.length_cons, List.length_append]; omega
  rw [hlen]
  have hE : readEsk data (pos + 1 + 1 + s.raw.length) (pos + 1 + 1 + s.raw.length + e.length) = .ok esk := by
    rw [readEsk]
    cases esk with
    | none =>
      simp only at he'; subst he'
      rw [if_neg (by simp)]
    | some x =>
      simp only at he'; subst he'
      have : 0 < x.length := List.length_pos_iff.mpr (fun h => he (by rw [h]))
      rw [if_pos (by omega), Nat.add_sub_cancel_left, substr_drop (by omega) hd3 rfl]
      rfl
  rw [hE]
  simp

end Tag3

/-! ## Tag 4 -/

theorem Tag4.readAt_ok (t : Tag4) (h3 : t.version = 3) (hk : t.keyid.length = 8) {data : Bytes} {pos : Nat} {rest : Bytes}
    {part : Bool} (hd : data.drop pos = t.raw ++ rest) :
    tagRead Tag4.fresh Tag4.actualRead ⟨data, pos, t.raw.length, part⟩ = .ok t := by
  obtain ⟨version, type, hash, pka, keyid, last⟩ := t
  simp only at h3 hk
  subst h3
  have hr : (⟨3, type, hash, pka, keyid, last⟩ : Tag4).raw = 3 :: type :: hash :: pka :: (keyid ++ [last]) := by
    simp [raw]
  rw [hr] at hd ⊢
  have hd0 : data.drop pos = 3 :: (type :: (hash :: (pka :: (keyid ++ (last :: rest))))) := by rw [hd]; simp
  have hd1 := drop_succ_of hd0
  have hd2 := drop_succ_of hd1
  have hd3 := drop_succ_of hd2
  have hd4 := drop_succ_of hd3
  have hl4 := le_of_drop_cons hd3
  have hd5 : data.drop (pos + 12) = last :: rest := by
    have := drop_field hd4 hk
    simpa [Nat.add_assoc] using this
  rw [tagRead, if_neg (by simp)]
  simp only [actualRead, charAt_drop hd0, charAt_drop hd1, charAt_drop hd2, charAt_drop hd3, Out.ok_bind,
    substr_drop hl4 hd4 hk, checkKeyid, hk, ne_eq, not_true, if_false, charAt_drop hd5]
  simp [hk]

/-! ## Tag 11 -/

theorem Tag11.readAt_ok (t : Tag11) (hn : t.filename.length < 256) (ht : t.time < 2 ^ 32) {data : Bytes} {pos : Nat}
    {rest : Bytes} {part : Bool} (hd : data.drop pos = t.raw ++ rest) :
    tagRead Tag11.fresh Tag11.actualRead ⟨data, pos, t.raw.length, part⟩ = .ok t := by
  obtain ⟨format, filename, time, literal⟩ := t
  simp only at hn ht
  set n := filename.length with hndef
  have hr : (⟨format, filename, time, literal⟩ : Tag11).raw = format :: UInt8.ofNat n :: (filename ++ (be 4 time ++ literal)) := by
    simp [raw, hndef]
  rw [hr] at hd ⊢
  have hd0 : data.drop pos = format :: (UInt8.ofNat n :: (filename ++ (be 4 time ++ (literal ++ rest)))) := by
    rw [hd]; simp
  have hd1 := drop_succ_of hd0
  have hd2 := drop_succ_of hd1
  have hl2 := le_of_drop_cons hd1
  have hd3 : data.drop (pos + 1 + 1 + n) = be 4 time ++ (literal ++ rest) := drop_field hd2 rfl
  have hl3 := le_of_drop hl2 hd2
  have hd4 : data.drop (pos + 1 + 1 + n + 4) = literal ++ rest := drop_field hd3 (by simp)
  have hl4 := le_of_drop hl3 hd3
  rw [be_length] at hl4
  have hn' : (UInt8.ofNat n).toNat = n := by rw [UInt8.toNat_ofNat']; omega
  have hs : subSz (format :: UInt8.ofNat n :: (filename ++ (be 4 time ++ literal))).length (2 + n + 4) = literal.length := by
    rw [subSz, if_pos] <;> simp only [List.length_cons, List.length_append, be_length] <;> omega
  rw [tagRead, if_neg (by simp)]
  simp only [actualRead, charAt_drop hd0, charAt_drop hd1, Out.ok_bind, hn', hs]
  rw [show pos + 2 = pos + 1 + 1 from rfl, substr_drop hl2 hd2 rfl, Out.ok_bind, substr_drop hl3 hd3 (by simp), Out.ok_bind,
    substr_drop hl4 hd4 rfl, Out.ok_bind, toint256_be4 _ ht]
  simp [show time % 4294967296 = time from Nat.mod_eq_of_lt ht]

/-! ## Tag 17 -/

namespace Attr

/-- An image attribute whose fields have the only values the writer can express. -/
def wf (a : Attr) : Prop := a.critical = false ∧ a.version = 1 ∧ a.encoding = 1 ∧ a.image.length + 17 < 2 ^ 32

theorem write_ne_nil (a : Attr) : a.write ≠ [] := by simp [write]

theorem readItem_at (a : Attr) (h : a.wf) {data : Bytes} {pos : Nat} {rest : Bytes}
    (hd : data.drop pos = a.write ++ rest) : readItem data pos = .ok (a, pos + a.write.length) := by
  obtain ⟨critical, version, encoding, image⟩ := a
  obtain ⟨h1, h2, h3, h4⟩ := h
  simp only at h1 h2 h3 h4
  subst h1 h2 h3
  set r := (⟨false, 1, 1, image⟩ : Attr).raw with hr
  have hrl : r.length = image.length + 16 := by simp [hr, raw]
  have hw : (⟨false, 1, 1, image⟩ : Attr).write = subLengthOctets (r.length + 1) ++ (1 :: r) := by simp [write, hr]
  rw [hw] at hd ⊢
  rw [List.append_assoc] at hd
  have hlen := readSubLength_at hd (by omega)
  have hd1 : data.drop (pos + (subLengthOctets (r.length + 1)).length) = 1 :: (r ++ rest) := by
    simpa using drop_add_of hd
  have hd2 := drop_succ_of hd1
  have hl2 := le_of_drop_cons hd1
  have hs : subSz (r.length + 1) 1 = r.length := by simp [subSz]
  simp only [readItem, hlen, Out.ok_bind, charAt_drop hd1, hs, substr_drop hl2 hd2 rfl]
  rw [if_neg (by simp)]
  have hread : Attr.read r = ⟨false, 1, 1, image⟩ := by
    rw [Attr.read, if_pos (by omega)]
    simp [hr, raw, List.replicate]
  simp [hread]
  omega

end Attr

end OpenPGP
