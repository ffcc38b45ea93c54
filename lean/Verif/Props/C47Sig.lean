import Verif.Props.C47
import Verif.Lemmas.Progress
import Verif.Lemmas.Reread

/-!
# C47, continued: signatures and secret keys

Exactly which subpacket areas, signature packets and secret key packets make the reader look at octets outside its input.
-/
namespace OpenPGP
variable {E : Type}

/-! ## Subpackets -/

theorem SubBody.read_ub_iff (readE : Bytes → Out E) (ty : Nat) (fresh : SubBody E) (hf : SubBody.default ty = some fresh) (d : Bytes) :
    SubBody.read readE fresh d = .ub ↔ ty = 32 ∧ d ≠ [] ∧ readE d = .ub := by
  unfold SubBody.read
  by_cases hd : d = []
  · simp [hd]
  rw [if_neg hd]
  unfold SubBody.default at hf
  split at hf <;> first
    | (simp at hf; done)
    | (obtain rfl := Option.some.inj hf
       simp [SubBody.actualRead, Out.bind_ub_iff, hd])

/-- An octet string that is to be read as an embedded signature: the body of the subpacket at `p`, behind its type. -/
def EmbeddedAt (data : Bytes) (p : Nat) (d : Bytes) : Prop :=
  ∃ len q t, readSubLength data p = .ok (len, q) ∧ charAt data q = .ok t ∧ (t &&& 0x7f).toNat = 32 ∧ substr data (q + 1) (subSz len 1) = .ok d ∧ d ≠ []

/-- One signature subpacket is read outside the area exactly when the area ends within its length octets, or it embeds a
signature that is. -/
theorem C47_subpacket_iff (readE : Bytes → Out E) (data : Bytes) (pos : Nat) (c : UInt8) (hp : pos < data.length) (hc : charAt data pos = .ok c) :
    readSubItem readE data pos = .ub ↔
      (192 ≤ c ∧ c < 255 ∧ data.length < pos + 2) ∨ (c = 255 ∧ data.length < pos + 5) ∨ ∃ d, EmbeddedAt data pos d ∧ readE d = .ub := by
  have hlen : ∃ len q, readSubLength data pos = .ok (len, q) ∧
      (data.length < q ↔ (192 ≤ c ∧ c < 255 ∧ data.length < pos + 2) ∨ (c = 255 ∧ data.length < pos + 5)) := by
    unfold readSubLength
    rw [hc, Out.ok_bind]
    split_ifs with h1 h2
    · have h3 : ¬ 192 ≤ c := UInt8.not_le.mpr h1
      have h4 : c ≠ 255 := by rintro rfl; exact absurd h1 (by decide)
      unfold readOneOctet
      rw [hc, Out.ok_bind]
      exact ⟨_, _, rfl, by simp [h3, h4]; omega⟩
    · have h3 : 192 ≤ c := UInt8.not_lt.mp h1
      have h4 : c ≠ 255 := by rintro rfl; exact absurd h2 (by decide)
      obtain ⟨d, hd⟩ := charAt_ok_of_le (s := data) (i := pos + 1) (by omega)
      unfold readTwoOctet
      simp only
      rw [hc, Out.ok_bind, hd, Out.ok_bind]
      exact ⟨_, _, rfl, by simp [h3, h2, h4]⟩
    · have h4 : c = 255 := by
        have := UInt8.not_lt.mp h2
        exact UInt8.toNat.inj (by have h5 := UInt8.le_iff_toNat_le.mp this; have := c.toNat_lt; simp at h5 ⊢; omega)
      subst h4
      unfold readFiveOctet
      have hk : substr data (pos + 1) 4 = .ok ((data.drop (pos + 1)).take 4) := by
        unfold substr; rw [if_neg (by omega)]
      rw [hk, Out.ok_bind]
      exact ⟨_, _, rfl, by simp⟩
  obtain ⟨len, q, hl, hiff⟩ := hlen
  rw [← or_assoc, ← hiff]
  unfold readSubItem
  rw [hl, Out.ok_bind]
  simp only
  constructor
  · intro h
    rcases Out.bind_ub_iff.mp h with h | ⟨t, ht, h⟩
    · exact .inl ((charAt_ub_iff _ _).mp h)
    · right
      cases hd : SubBody.default (E := E) (t &&& 0x7f).toNat with
      | none => rw [hd] at h; cases h
      | some fresh =>
        rw [hd] at h
        rcases Out.bind_ub_iff.mp h with h | ⟨d, hs, h⟩
        · exact absurd h (substr_ne_ub _ _ _)
        · rcases Out.bind_ub_iff.mp h with h | ⟨b, -, h⟩
          · obtain ⟨h1, h2, h3⟩ := (SubBody.read_ub_iff readE _ fresh hd d).mp h
            exact ⟨d, ⟨len, q, t, hl, ht, h1, hs, h2⟩, h3⟩
          · simp at h
  · rintro (h | ⟨d, ⟨len', q', t, hl', ht, h1, hs, h2⟩, h3⟩)
    · rw [(charAt_ub_iff _ _).mpr h]; rfl
    · obtain ⟨rfl, rfl⟩ := Prod.mk.inj (Out.ok.inj (hl.symm.trans hl'))
      rw [ht, Out.ok_bind]
      have hd : SubBody.default (E := E) (t &&& 0x7f).toNat = some (.embedded none) := by rw [h1]; rfl
      rw [hd]
      simp only
      rw [hs, Out.ok_bind, (SubBody.read_ub_iff readE _ _ hd d).mpr ⟨h1, h2, h3⟩]
      rfl

/-- From `a`, whole items can be read up to `b`. -/
inductive ItemsTo {α : Type} (item : Nat → Out (α × Nat)) (stop : Nat) : Nat → Nat → Prop
  | here (a : Nat) : ItemsTo item stop a a
  | next {a b c : Nat} {x : α} (h : a < stop) (hx : item a = .ok (x, b)) (r : ItemsTo item stop b c) : ItemsTo item stop a c

/-- A loop over items reads outside exactly when, behind some whole items, the next one does (if every item moves on). -/
theorem untilLoop_ub_iff {α : Type} (item : Nat → Out (α × Nat)) (stop : Nat) (hmono : ∀ p x q, item p = .ok (x, q) → p < q) :
    ∀ fuel pos, stop - pos < fuel → (untilLoop item stop fuel pos = .ub ↔ ∃ p, ItemsTo item stop pos p ∧ p < stop ∧ item p = .ub) := by
  intro fuel
  induction fuel with
  | zero => intro pos h; omega
  | succ n ih =>
    intro pos hf
    unfold untilLoop
    split_ifs with hp
    · constructor
      · intro h
        rcases Out.bind_ub_iff.mp h with h | ⟨⟨x, q⟩, hx, h⟩
        · exact ⟨pos, .here _, hp, h⟩
        · have := hmono _ _ _ hx
          rcases Out.bind_ub_iff.mp h with h | ⟨l, -, h⟩
          · obtain ⟨p, h1, h2, h3⟩ := (ih q (by omega)).mp h
            exact ⟨p, .next hp hx h1, h2, h3⟩
          · simp at h
      · rintro ⟨p, h1, h2, h3⟩
        cases h1 with
        | here => rw [h3]; rfl
        | next h hx r =>
          rename_i b x
          have := hmono _ _ _ hx
          rw [hx, Out.ok_bind]
          simp only
          rw [(ih b (by omega)).mpr ⟨p, r, h2, h3⟩]
          rfl
    · constructor
      · intro h; cases h
      · rintro ⟨p, h1, h2, h3⟩
        cases h1 with
        | here => exact absurd h2 hp
        | next h hx r => exact absurd h hp


theorem readSubItem_progress {readE : Bytes → Out E} {data : Bytes} {p q : Nat} {x : Sub E} (h : readSubItem readE data p = .ok (x, q)) : p < q := by
  unfold readSubItem at h
  obtain ⟨⟨len, p'⟩, hl, h⟩ := Out.bind_eq_ok.mp h
  obtain ⟨t, -, h⟩ := Out.bind_eq_ok.mp h
  have := readSubLength_pos hl
  cases hd : SubBody.default (E := E) (t &&& 0x7f).toNat with
  | none => rw [hd] at h; cases h
  | some fresh =>
    rw [hd] at h
    obtain ⟨d, -, h⟩ := Out.bind_eq_ok.mp h
    obtain ⟨b, -, h⟩ := Out.bind_eq_ok.mp h
    have := (Prod.mk.inj (Out.ok.inj h)).2
    omega

/-- A subpacket area is read outside exactly when, behind some whole subpackets, one is. -/
theorem C47_area_iff (readE : Bytes → Out E) (data : Bytes) :
    readSubpackets readE data = .ub ↔
      ∃ p c, ItemsTo (readSubItem readE data) data.length 0 p ∧ p < data.length ∧ charAt data p = .ok c ∧
        ((192 ≤ c ∧ c < 255 ∧ data.length < p + 2) ∨ (c = 255 ∧ data.length < p + 5) ∨ ∃ d, EmbeddedAt data p d ∧ readE d = .ub) := by
  rw [readSubpackets, readSubpackets_until, Out.map_ub_iff, untilLoop_ub_iff _ _ (fun p x q h => readSubItem_progress h) _ _ (by omega)]
  constructor
  · rintro ⟨p, h1, h2, h3⟩
    obtain ⟨c, hc⟩ := charAt_ok_of_le (s := data) (i := p) (by omega)
    exact ⟨p, c, h1, h2, hc, (C47_subpacket_iff readE data p c h2 hc).mp h3⟩
  · rintro ⟨p, c, h1, h2, hc, h3⟩
    exact ⟨p, h1, h2, (C47_subpacket_iff readE data p c h2 hc).mpr h3⟩

/-! ## Signature packets -/

/-- Version 3: the input ends behind the key ID, or an integer starts at or behind its end. (The integers are looked for at
position 19, wherever the packet is.) -/
theorem C47_signature3_iff (data : Bytes) (pos : Nat) (hp : pos < data.length) :
    Tag2.readV3 (E := E) data pos = .ub ↔
      charAt data (pos + 1) = .ok 5 ∧ (data.length = pos + 15 ∨ (pos + 17 ≤ data.length ∧
        ∃ pka, charAt data (pos + 15) = .ok pka ∧
          ((isRSA pka = true ∧ readMPIs data 1 19 = .ub) ∨ (pka = 17 ∧ readMPIs data 2 19 = .ub)))) := by
  unfold Tag2.readV3
  obtain ⟨f, hf⟩ := charAt_ok_of_le (s := data) (i := pos + 1) (by omega)
  rw [hf, Out.ok_bind]
  by_cases h5 : f = 5
  swap
  · simp [h5]
  subst h5
  have hl1 : pos + 1 < data.length := by
    by_contra hn
    have e : data.length = pos + 1 := by omega
    have := charAt_end (data := data) (by rw [e]; exact hf)
    simp at this
  obtain ⟨t, ht⟩ := charAt_ok_of_le (s := data) (i := pos + 2) (by omega)
  simp only [ne_eq, not_true, if_false, true_and]
  rw [ht, Out.ok_bind]
  by_cases hl2 : data.length < pos + 15
  · have : (¬ (data.length = pos + 15 ∨ (pos + 17 ≤ data.length ∧ ∃ pka, charAt data (pos + 15) = .ok pka ∧
          ((isRSA pka = true ∧ readMPIs data 1 19 = .ub) ∨ (pka = 17 ∧ readMPIs data 2 19 = .ub))))) := by omega
    simp only [this, iff_false]
    refine Out.bind_ne_ub (substr_ne_ub _ _ _) fun _ _ => Out.bind_ne_ub (substr_ne_ub _ _ _) fun k hk => ?_
    unfold substr at hk
    split_ifs at hk
    obtain rfl := Out.ok.inj hk
    rw [if_pos (by simp; omega)]
    simp
  · have hs1 : substr data (pos + 3) 4 = .ok ((data.drop (pos + 3)).take 4) := by unfold substr; rw [if_neg (by omega)]
    have hs2 : substr data (pos + 7) 8 = .ok ((data.drop (pos + 7)).take 8) := by unfold substr; rw [if_neg (by omega)]
    rw [hs1, Out.ok_bind, hs2, Out.ok_bind, if_neg (by simp; omega)]
    obtain ⟨pka, hpka⟩ := charAt_ok_of_le (s := data) (i := pos + 15) (by omega)
    rw [hpka, Out.ok_bind]
    by_cases hl3 : data.length = pos + 15
    · rw [(charAt_ub_iff data (pos + 16)).mpr (by omega)]
      simp [hl3]
    obtain ⟨hash, hh⟩ := charAt_ok_of_le (s := data) (i := pos + 16) (by omega)
    rw [hh, Out.ok_bind]
    by_cases hl4 : data.length = pos + 16
    · have hs3 : substr data (pos + 17) 2 = .throw := by unfold substr; rw [if_pos (by omega)]
      rw [hs3]
      simp [hl4]
    · have hs3 : substr data (pos + 17) 2 = .ok ((data.drop (pos + 17)).take 2) := by unfold substr; rw [if_neg (by omega)]
      rw [hs3, Out.ok_bind]
      have hl5 : pos + 17 ≤ data.length := by omega
      simp only [hl3, false_or, hl5, true_and, Out.ok.injEq, exists_eq_left']
      by_cases hr : isRSA pka = true
      · have h17 : pka ≠ 17 := by rintro rfl; simp [isRSA] at hr
        simp only [hr, if_true, true_and, h17, false_and, or_false]
        rw [Out.bind_ub_iff]
        constructor
        · rintro (h | ⟨a, -, h⟩)
          · exact h
          · simp at h
        · exact fun h => .inl h
      · simp only [hr, false_and, false_or, if_false, Bool.false_eq_true]
        by_cases h17 : pka = 17
        · simp only [h17, if_true, true_and]
          rw [Out.bind_ub_iff]
          constructor
          · rintro (h | ⟨a, -, h⟩)
            · exact h
            · simp at h
          · exact fun h => .inl h
        · simp [h17]

theorem substr_ok_iff {s : Bytes} {i n : Nat} {r : Bytes} : substr s i n = .ok r ↔ i ≤ s.length ∧ r = (s.drop i).take n := by
  unfold substr
  split_ifs with h
  · simp; omega
  · constructor
    · intro e; exact ⟨by omega, (Out.ok.inj e).symm⟩
    · rintro ⟨-, rfl⟩; rfl

/-- The two octets at a position as a number (RFC 4880, 3.1). -/
def twoAt (data : Bytes) (p : Nat) : Nat := toint256 ((data.drop p).take 2) % 2 ^ 16

/-- Version 4: the input ends before the hash algorithm, or the hashed area is read outside itself, or (the hashed area being
readable) the unhashed one is, or (both being readable) an integer starts at or behind the end of the input. -/
theorem C47_signature4_iff (readE : Bytes → Out E) (data : Bytes) (pos : Nat) (hp : pos < data.length) :
    Tag2.readV4 readE data pos = .ub ↔
      data.length ≤ pos + 2 ∨
      (pos + 6 ≤ data.length ∧ (readSubpackets readE ((data.drop (pos + 6)).take (twoAt data (pos + 4))) = .ub ∨
        ((∃ h, readSubpackets readE ((data.drop (pos + 6)).take (twoAt data (pos + 4))) = .ok h) ∧
          ∃ u, u = pos + 6 + twoAt data (pos + 4) ∧ u + 2 ≤ data.length ∧
            (readSubpackets readE ((data.drop (u + 2)).take (twoAt data u)) = .ub ∨
              ((∃ l, readSubpackets readE ((data.drop (u + 2)).take (twoAt data u)) = .ok l) ∧ u + 2 + twoAt data u ≤ data.length ∧
                ∃ pka, charAt data (pos + 2) = .ok pka ∧ readMPIs data (if pka = 17 then 2 else 1) (u + 2 + twoAt data u + 2) = .ub))))) := by
  unfold Tag2.readV4
  obtain ⟨t, ht⟩ := charAt_ok_of_le (s := data) (i := pos + 1) (by omega)
  rw [ht, Out.ok_bind]
  by_cases h1 : data.length < pos + 2
  · rw [(charAt_ub_iff _ _).mpr h1]
    simp only [Out.ub_bind, true_iff]; omega
  obtain ⟨pka, hpka⟩ := charAt_ok_of_le (s := data) (i := pos + 2) (by omega)
  rw [hpka, Out.ok_bind]
  by_cases h2 : data.length < pos + 3
  · rw [(charAt_ub_iff _ _).mpr h2]
    simp only [Out.ub_bind, true_iff]; omega
  obtain ⟨hash, hh⟩ := charAt_ok_of_le (s := data) (i := pos + 3) (by omega)
  rw [hh, Out.ok_bind]
  have h3 : ¬ data.length ≤ pos + 2 := by omega
  simp only [h3, false_or]
  by_cases h4 : data.length < pos + 4
  · have hs : substr data (pos + 4) 2 = .throw := by unfold substr; rw [if_pos h4]
    rw [hs]
    simp only [Out.throw_bind, reduceCtorEq, false_iff]; omega
  have hs : substr data (pos + 4) 2 = .ok ((data.drop (pos + 4)).take 2) := substr_ok_iff.mpr ⟨by omega, rfl⟩
  rw [hs, Out.ok_bind]
  simp only [Nat.add_assoc, Nat.reduceAdd]
  by_cases h5 : data.length < pos + 6
  · have hs : ∀ n, substr data (pos + 6) n = .throw := fun n => by unfold substr; rw [if_pos h5]
    rw [hs]
    simp only [Out.throw_bind, reduceCtorEq, false_iff]; omega
  rw [substr_ok_iff.mpr ⟨by omega, rfl⟩, Out.ok_bind]
  change (readSubpackets readE ((data.drop (pos + 6)).take (twoAt data (pos + 4))) >>= _) = _ ↔ _
  have h6 : pos + 6 ≤ data.length := by omega
  simp only [h6, true_and]
  cases hH : readSubpackets readE ((data.drop (pos + 6)).take (twoAt data (pos + 4))) with
  | ub => simp
  | throw => simp
  | diverge => simp
  | ok hl =>
    simp only [Out.ok_bind, reduceCtorEq, false_or, Out.ok.injEq, exists_eq', true_and, exists_eq_left]
    change (substr data (pos + (6 + twoAt data (pos + 4))) 2 >>= _) = _ ↔ _
    generalize hu : pos + (6 + twoAt data (pos + 4)) = u
    by_cases h7 : data.length < u
    · have hs : substr data u 2 = .throw := by unfold substr; rw [if_pos h7]
      rw [hs]
      simp only [Out.throw_bind, reduceCtorEq, false_iff]; omega
    rw [substr_ok_iff.mpr ⟨by omega, rfl⟩, Out.ok_bind]
    simp only [show pos + (6 + (toint256 (List.take 2 (List.drop (pos + 4) data)) % 2 ^ 16 + 2)) = u + 2 from by rw [← hu]; unfold twoAt; omega]
    by_cases h8 : data.length < u + 2
    · have hs : ∀ n, substr data (u + 2) n = .throw := fun n => by unfold substr; rw [if_pos h8]
      rw [hs]
      simp only [Out.throw_bind, reduceCtorEq, false_iff]; omega
    rw [substr_ok_iff.mpr ⟨by omega, rfl⟩, Out.ok_bind]
    change (readSubpackets readE ((data.drop (u + 2)).take (twoAt data u)) >>= _) = _ ↔ _
    have h9 : u + 2 ≤ data.length := by omega
    simp only [h9, true_and]
    cases hU : readSubpackets readE ((data.drop (u + 2)).take (twoAt data u)) with
    | ub => simp
    | throw => simp
    | diverge => simp
    | ok ul =>
      simp only [Out.ok_bind, reduceCtorEq, false_or, Out.ok.injEq, exists_eq', true_and, exists_eq_left']
      rw [show pos + (6 + (toint256 (List.take 2 (List.drop (pos + 4) data)) % 2 ^ 16 + (2 + toint256 (List.take 2 (List.drop u data)) % 2 ^ 16))) =
          u + (2 + twoAt data u) from by rw [← hu]; unfold twoAt; omega,
        show pos + (6 + (toint256 (List.take 2 (List.drop (pos + 4) data)) % 2 ^ 16 + (2 + (toint256 (List.take 2 (List.drop u data)) % 2 ^ 16 + 2)))) =
          u + (2 + (twoAt data u + 2)) from by rw [← hu]; unfold twoAt; omega]
      constructor
      · intro h
        rcases Out.bind_ub_iff.mp h with h | ⟨l, hl, h⟩
        · exact absurd h (substr_ne_ub _ _ _)
        · rcases Out.bind_ub_iff.mp h with h | ⟨m, -, h⟩
          · exact ⟨(substr_ok_iff.mp hl).1, h⟩
          · simp at h
      · rintro ⟨h10, h11⟩
        rw [substr_ok_iff.mpr ⟨h10, rfl⟩, Out.ok_bind, h11]
        rfl

/-- A signature packet as a whole: only versions 3 and 4 are looked into. -/
theorem C47_signature_iff (readE : Bytes → Out E) (s : Span) (hs : s.start + s.length ≤ s.src.length) (h0 : s.length ≠ 0) :
    Tag2.readAt readE s = .ub ↔
      (charAt s.src s.start = .ok 3 ∧ Tag2.readV3 (E := E) s.src s.start = .ub) ∨
      (charAt s.src s.start = .ok 4 ∧ Tag2.readV4 readE s.src s.start = .ub) := by
  unfold Tag2.readAt
  rw [tagRead_ub_iff]
  unfold Tag2.actualRead
  obtain ⟨v, hv⟩ := charAt_ok_of_le (s := s.src) (i := s.start) (by omega)
  rw [hv, Out.ok_bind]
  simp only [Out.ok.injEq]
  by_cases h3 : v = 3
  · simp [h3, h0]
  · by_cases h4 : v = 4
    · simp [h4, h0]
    · simp [h3, h4]

/-! ## User attributes -/

/-- A user attribute packet is read outside the input exactly when the input ends within the length octets of a subpacket
that starts before the position given by the packet's length. -/
theorem C47_attributes_iff (data : Bytes) (pos length : Nat) (hl : length ≤ data.length) :
    Attr.readList data pos length = .ub ↔
      ∃ p c, ItemsTo (Attr.readItem data) length pos p ∧ p < length ∧ charAt data p = .ok c ∧
        ((192 ≤ c ∧ c < 255 ∧ data.length < p + 2) ∨ (c = 255 ∧ data.length < p + 5)) := by
  unfold Attr.readList
  rw [untilLoop_ub_iff _ _ (fun p x q h => Attr.readItem_progress h) _ _ (by omega)]
  constructor
  · rintro ⟨p, h1, h2, h3⟩
    obtain ⟨c, hc⟩ := charAt_ok_of_le (s := data) (i := p) (by omega)
    exact ⟨p, c, h1, h2, hc, (C47_attribute_iff data p c (by omega) hc).mp h3⟩
  · rintro ⟨p, c, h1, h2, hc, h3⟩
    exact ⟨p, h1, h2, (C47_attribute_iff data p c (by omega) hc).mpr h3⟩

/-! ## Secret keys -/

/-- A secret key packet is read outside exactly when its public part is, or the public part claims more octets than there
are, or the input ends within the cipher octet or right behind it although a specifier is announced. -/
theorem C47_secret_iff (data : Bytes) (pos length : Nat) :
    Tag5.actualRead data pos length = .ub ↔
      KeyPkt.readCommon data pos = .ub ∨
      ∃ k p, KeyPkt.readCommon data pos = .ok (k, p) ∧
        (data.length < p ∨ ((charAt data p = .ok 254 ∨ charAt data p = .ok 255) ∧ data.length ≤ p + 2)) := by
  unfold Tag5.actualRead
  rw [Out.bind_ub_iff]
  refine or_congr Iff.rfl ?_
  constructor
  · rintro ⟨⟨k, p⟩, hk, h⟩
    refine ⟨k, p, hk, ?_⟩
    rcases Out.bind_ub_iff.mp h with h | ⟨c, hc, h⟩
    · exact .inl ((charAt_ub_iff _ _).mp h)
    · right
      rcases Out.bind_ub_iff.mp h with h | ⟨⟨sym, s2k, q⟩, -, h⟩
      · unfold Tag5.readProtection at h
        split_ifs at h with h2
        have h2' : c = 254 ∨ c = 255 := by simpa [Tag5.hasS2K] using h2
        refine ⟨by rcases h2' with rfl | rfl; exacts [.inl hc, .inr hc], ?_⟩
        rcases Out.bind_ub_iff.mp h with h | ⟨sym, -, h⟩
        · have := (charAt_ub_iff _ _).mp h; omega
        · rcases Out.bind_ub_iff.mp h with h | ⟨x, -, h⟩
          · have := (C47_s2k_iff _ _).mp h; omega
          · simp at h
      · exfalso
        rcases Out.bind_ub_iff.mp h with h | ⟨iv, -, h⟩
        · unfold Tag5.readIV at h
          split_ifs at h
          rcases Out.bind_ub_iff.mp h with h | ⟨bs, -, h⟩
          · cases hb : blockLen sym <;> simp [mapAt, hb] at h
          · exact substr_ne_ub _ _ _ h
        · rcases Out.bind_ub_iff.mp h with h | ⟨sec, -, h⟩
          · exact substr_ne_ub _ _ _ h
          · simp at h
  · rintro ⟨k, p, hk, h⟩
    refine ⟨(k, p), hk, ?_⟩
    rcases h with h | ⟨hc, hl⟩
    · simp only
      rw [(charAt_ub_iff _ _).mpr h]; rfl
    · have hc' : ∃ c, charAt data p = .ok c ∧ Tag5.hasS2K c = true := by
        rcases hc with hc | hc
        · exact ⟨254, hc, rfl⟩
        · exact ⟨255, hc, rfl⟩
      obtain ⟨c, hc, h2⟩ := hc'
      simp only
      rw [hc, Out.ok_bind]
      unfold Tag5.readProtection
      rw [if_pos h2]
      have : (do
          let sym ← charAt data (p + 1)
          let (s, pos) ← S2K.read data (p + 1 + 1)
          return (sym, some s, pos) : Out (UInt8 × Option S2K × Nat)) = .ub := by
        rw [Out.bind_ub_iff]
        by_cases h1 : data.length < p + 1
        · exact .inl ((charAt_ub_iff _ _).mpr h1)
        · obtain ⟨x, hx⟩ := charAt_ok_of_le (s := data) (i := p + 1) (by omega)
          refine .inr ⟨x, hx, ?_⟩
          rw [(C47_s2k_iff _ _).mpr (by omega)]; rfl
      rw [this]; rfl

/-! ## Concrete cases -/

/-- An area of two subpackets (a time; then a two-octet length with nothing behind its first octet). -/
example : readSubpackets (E := Empty) (fun _ => .throw) [5, 2, 0, 0, 0, 1, 192] = .ub := by decide +kernel
example : ItemsTo (readSubItem (E := Empty) (fun _ => .throw) [5, 2, 0, 0, 0, 1, 192]) 7 0 6 :=
  .next (x := ⟨false, .sigTime 1⟩) (b := 6) (by decide) (by decide +kernel) (.here 6)

/-- The same area with the octet and everything it announces is readable. -/
example : readSubpackets (E := Empty) (fun _ => .throw) ([5, 2, 0, 0, 0, 1, 192, 0, 26] ++ List.replicate 191 7) =
    .ok [⟨false, .sigTime 1⟩, ⟨false, .policy (List.replicate 191 7)⟩] := by decide +kernel

/-- A version 4 signature that ends behind its version, and one whose integer is missing. -/
example : Tag2.readAt (E := Empty) (fun _ => .throw) ⟨[4, 0], 0, 2, false⟩ = .ub := by decide +kernel
example : Tag2.readAt (E := Empty) (fun _ => .throw) ⟨[4, 0, 1, 8, 0, 0, 0, 0, 9, 9], 0, 10, false⟩ = .ub := by decide +kernel

/-- A secret key whose usage octet announces a specifier that is not there. -/
example : Tag5.readAt ⟨[4, 0, 0, 0, 1, 1, 0, 4, 13, 0, 2, 3, 254, 9], 0, 14, false⟩ = .ub := by decide +kernel
example : Tag5.readAt ⟨[4, 0, 0, 0, 1, 1, 0, 4, 13, 0, 2, 3, 254, 9, 0, 2, 1, 2, 3, 4, 5, 6, 7, 8, 9, 10, 11, 12, 13, 14, 15, 16, 17], 0, 33, false⟩ =
    .ok ⟨⟨4, 1, 1, [13, 3], 0⟩, 254, 9, some (.simple 2), [1, 2, 3, 4, 5, 6, 7, 8, 9, 10, 11, 12, 13, 14, 15, 16], [17]⟩ := by decide +kernel

end OpenPGP
