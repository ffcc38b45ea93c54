import Verif.Props.C48

/-!
# C47: parsing never reads outside the input

`std::string::operator[]` at an index beyond `size()` is the outcome `.ub` of the model (index `size()` reads the terminating
NUL).  The property is false of the library; these theorems say exactly where for the primitive readers, which packets are safe, and
give for the others the inputs that are read past their end.
-/
namespace OpenPGP

theorem charAt_ub_iff (s : Bytes) (i : Nat) : charAt s i = .ub ↔ s.length < i := by
  unfold charAt
  split_ifs with h1 h2
  · simp; omega
  · simp; omega
  · simp; omega

theorem charAt_ok_of_le {s : Bytes} {i : Nat} (h : i ≤ s.length) : ∃ c, charAt s i = .ok c := by
  unfold charAt
  split_ifs with h1 h2
  · exact ⟨_, rfl⟩
  · exact ⟨_, rfl⟩
  · omega

theorem substr_ne_ub (s : Bytes) (i n : Nat) : substr s i n ≠ .ub := by unfold substr; split_ifs <;> simp

theorem Out.bind_ne_ub {α β : Type} {x : Out α} {f : α → Out β} (hx : x ≠ .ub)
    (hf : ∀ a, x = .ok a → f a ≠ .ub) : (x >>= f) ≠ .ub := by
  cases x with
  | ok a => exact hf a rfl
  | throw => simp
  | ub => exact absurd rfl hx
  | diverge => simp

theorem Out.map_ne_ub {α β : Type} {x : Out α} {f : α → β} (hx : x ≠ .ub) : (f <$> x) ≠ .ub := by
  cases x with
  | ok a => simp
  | throw => simp
  | ub => exact absurd rfl hx
  | diverge => simp

theorem charAt_ne_ub {s : Bytes} {i : Nat} (h : i ≤ s.length) : charAt s i ≠ .ub := by
  obtain ⟨c, hc⟩ := charAt_ok_of_le h
  rw [hc]; simp

theorem hexStep_ne_ub (l : Bytes) (x : Out Nat) (h : x ≠ .ub) : l.foldl hexStep x ≠ .ub := by
  induction l generalizing x with
  | nil => exact h
  | cons c l ih =>
    apply ih
    unfold hexStep
    apply Out.bind_ne_ub h
    intro a _
    split <;> simp

theorem rawtompi_ne_ub (r : Bytes) : rawtompi r ≠ .ub := by
  unfold rawtompi hextompi
  split_ifs
  · simp
  · exact hexStep_ne_ub _ _ (by simp)

/-- `read_MPI` reads outside exactly when it is called at or behind the end of the input. -/
theorem C47_mpi_iff (data : Bytes) (pos : Nat) : readMPI data pos = .ub ↔ data.length ≤ pos := by
  constructor
  · intro h
    by_contra hp
    refine absurd h ?_
    unfold readMPI
    refine Out.bind_ne_ub (charAt_ne_ub (by omega)) fun _ _ => Out.bind_ne_ub (charAt_ne_ub (by omega)) fun _ _ => ?_
    exact Out.bind_ne_ub (substr_ne_ub _ _ _) fun _ _ => Out.bind_ne_ub (rawtompi_ne_ub _) fun _ _ => by simp
  · intro h
    unfold readMPI
    by_cases hp : pos = data.length
    · obtain ⟨c, hc⟩ := charAt_ok_of_le (s := data) (i := pos) (by omega)
      rw [hc, Out.ok_bind, (charAt_ub_iff data (pos + 1)).mpr (by omega)]
      rfl
    · rw [(charAt_ub_iff data pos).mpr (by omega)]
      rfl

/-- A row of integers is read outside the input exactly when one of them starts at or behind its end: the declared size of the one
before it is not checked. -/
theorem C47_mpis_iff (data : Bytes) (n pos : Nat) :
    readMPIs data n pos = .ub ↔ ∃ k l p, k < n ∧ readMPIs data k pos = .ok (l, p) ∧ data.length ≤ p := by
  induction n generalizing pos with
  | zero => simp [readMPIs]
  | succ n ih =>
    constructor
    · intro h
      cases hm : readMPI data pos with
      | ub => exact ⟨0, [], pos, by omega, rfl, (C47_mpi_iff _ _).mp hm⟩
      | throw => rw [readMPIs, hm] at h; cases h
      | diverge => rw [readMPIs, hm] at h; cases h
      | ok a =>
        obtain ⟨a, p⟩ := a
        rw [readMPIs, hm, Out.ok_bind] at h
        simp only at h
        have h' : readMPIs data n p = .ub := by
          cases hr : readMPIs data n p with
          | ub => rfl
          | throw => rw [hr] at h; cases h
          | diverge => rw [hr] at h; cases h
          | ok x => rw [hr] at h; cases h
        obtain ⟨k, l, p', hk, hl, hp⟩ := (ih p).mp h'
        refine ⟨k + 1, a :: l, p', by omega, ?_, hp⟩
        rw [readMPIs, hm, Out.ok_bind]
        simp only
        rw [hl]
        rfl
    · rintro ⟨k, l, p, hk, hl, hp⟩
      cases k with
      | zero =>
        simp only [readMPIs] at hl
        have := (Prod.mk.inj (Out.ok.inj hl)).2
        rw [readMPIs, (C47_mpi_iff data pos).mpr (by omega)]
        rfl
      | succ k =>
        rw [readMPIs] at hl
        obtain ⟨⟨a, q⟩, h1, hl⟩ := Out.bind_eq_ok.mp hl
        obtain ⟨⟨l', q'⟩, h2, hl⟩ := Out.bind_eq_ok.mp hl
        have hq := (Prod.mk.inj (Out.ok.inj hl)).2
        rw [readMPIs, h1, Out.ok_bind]
        simp only
        rw [(ih q).mpr ⟨k, l', q', by omega, h2, by omega⟩]
        rfl

/-- String-to-key specifiers: read outside exactly when they start at or behind the end. -/
theorem C47_s2k_iff (data : Bytes) (pos : Nat) : S2K.read data pos = .ub ↔ data.length ≤ pos := by
  constructor
  · intro h
    by_contra hp
    refine absurd h ?_
    have hs : ∀ p, S2K.readSalt data p ≠ .ub := by
      intro p
      unfold S2K.readSalt
      refine Out.bind_ne_ub (substr_ne_ub _ _ _) fun _ _ => ?_
      split_ifs <;> simp
    unfold S2K.read
    refine Out.bind_ne_ub (charAt_ne_ub (by omega)) fun _ _ => ?_
    split_ifs
    · exact Out.bind_ne_ub (charAt_ne_ub (by omega)) fun _ _ => by simp
    · exact Out.bind_ne_ub (charAt_ne_ub (by omega)) fun _ _ => Out.bind_ne_ub (hs _) fun _ _ => by simp
    · refine Out.bind_ne_ub (charAt_ne_ub (by omega)) fun _ _ => Out.bind_ne_ub (hs _) fun x hx => ?_
      refine Out.bind_ne_ub (charAt_ne_ub ?_) fun _ _ => by simp
      unfold S2K.readSalt at hx
      obtain ⟨y, hy, hx⟩ := Out.bind_eq_ok.mp hx
      split_ifs at hx with hl
      unfold substr at hy
      split_ifs at hy
      obtain rfl := Out.ok.inj hy
      simp only [List.length_take, List.length_drop] at hl
      omega
    · simp
  · intro h
    unfold S2K.read
    by_cases hp : pos = data.length
    · have : charAt data pos = .ok 0 := by
        unfold charAt
        rw [dif_neg (by omega), if_pos hp]
      rw [this, Out.ok_bind, if_pos rfl, (charAt_ub_iff data (pos + 1)).mpr (by omega)]
      rfl
    · rw [(charAt_ub_iff data pos).mpr (by omega)]
      rfl

/-- Radix-64 text: read outside exactly when it consists of padding only (the empty text included). -/
theorem C47_radix64_iff (s : Bytes) : radix642ascii s = .ub ↔ s.length % 4 = 0 ∧ ∀ c ∈ s, c = 61 := by
  have hstrip : ∀ (l : Bytes) n, stripPad l n = .ub ↔ ∀ c ∈ l, c = 61 := by
    intro l
    induction l with
    | nil => simp [stripPad]
    | cons c l ih =>
      intro n
      unfold stripPad
      split_ifs with hc
      · rw [ih]; simp [hc]
      · simp [hc]
  have hbits : ∀ (l : Bytes), radixBitsAll 43 47 l ≠ .ub := by
    intro l
    induction l with
    | nil => simp [radixBitsAll]
    | cons c l ih =>
      unfold radixBitsAll
      refine Out.bind_ne_ub ?_ fun _ _ => Out.bind_ne_ub ih fun _ _ => by simp
      unfold radixBits
      split_ifs <;> simp
  unfold radix642ascii
  split_ifs with h
  · simp only [reduceCtorEq, false_iff]; tauto
  · have h4 : s.length % 4 = 0 := by omega
    constructor
    · intro hu
      refine ⟨h4, ?_⟩
      by_contra hne
      refine absurd hu (Out.bind_ne_ub ?_ fun _ _ => Out.bind_ne_ub (hbits _) fun _ _ => by simp)
      intro hs
      exact hne (by simpa using (hstrip _ _).mp hs)
    · rintro ⟨-, hall⟩
      rw [(hstrip s.reverse 0).mpr (by simpa using hall)]
      rfl

/-! ### Framing -/

theorem readOneOctet_ne_ub {data : Bytes} {pos : Nat} (h : pos ≤ data.length) : readOneOctet data pos ≠ .ub :=
  Out.bind_ne_ub (charAt_ne_ub h) fun _ _ => by simp

theorem readFiveOctet_ne_ub (data : Bytes) (pos : Nat) : readFiveOctet data pos ≠ .ub :=
  Out.bind_ne_ub (substr_ne_ub _ _ _) fun _ _ => by simp

theorem charAt_end {data : Bytes} {c : UInt8} (h : charAt data data.length = .ok c) : c = 0 := by
  unfold charAt at h
  rw [dif_neg (by omega), if_pos rfl] at h
  exact (Out.ok.inj h).symm

theorem newDefinite_ne_ub {data : Bytes} {pos : Nat} {c : UInt8} (hp : pos ≤ data.length) (hc : charAt data pos = .ok c) :
    newDefinite data pos c ≠ .ub := by
  unfold newDefinite
  split_ifs with h1 h2
  · exact Out.bind_ne_ub (readOneOctet_ne_ub hp) fun _ _ => by simp
  · refine Out.bind_ne_ub ?_ fun _ _ => by simp
    have : pos ≠ data.length := by
      rintro rfl
      rw [charAt_end hc] at h1
      exact h1 (by decide)
    exact Out.bind_ne_ub (charAt_ne_ub hp) fun _ _ => Out.bind_ne_ub (charAt_ne_ub (by omega)) fun _ _ => by simp
  · exact Out.bind_ne_ub (readFiveOctet_ne_ub _ _) fun _ _ => by simp
  · simp

/-- Packet headers and lengths are read within the input, except by the partial body lengths of the new format. -/
theorem C47_framing (fmt : Fmt) (ctb : UInt8) (data : Bytes) (pos : Nat) (hp : pos ≤ data.length)
    (hpart : fmt = .new → ∀ c, charAt data pos = .ok c → ¬ (224 ≤ c ∧ c ≠ 255)) :
    readUnformatted fmt ctb data pos ≠ .ub := by
  cases fmt
  · simp only [readUnformatted]
    split_ifs
    · exact Out.bind_ne_ub (readOneOctet_ne_ub hp) fun _ _ => by simp
    · exact Out.bind_ne_ub (Out.bind_ne_ub (substr_ne_ub _ _ _) fun _ _ => by simp) fun _ _ => by simp
    · exact Out.bind_ne_ub (readFiveOctet_ne_ub _ _) fun _ _ => by simp
    · exact Out.bind_ne_ub (substr_ne_ub _ _ _) fun _ _ => by simp
  · simp only [readUnformatted]
    refine Out.bind_ne_ub (charAt_ne_ub hp) fun c hc => ?_
    rw [if_neg (hpart rfl c hc)]
    exact Out.bind_ne_ub (newDefinite_ne_ub hp hc) fun ⟨_, _, _⟩ _ => by simp

/-- A partial body length that promises more octets than the input has: the library looks for the next length behind the end. -/
theorem C47_partial_ub (ctb : UInt8) (data : Bytes) (pos : Nat) (c : UInt8) (hpos : pos < data.length)
    (hc : charAt data pos = .ok c) (hpart : 224 ≤ c ∧ c ≠ 255)
    (hlong : data.length < pos + 1 + 2 ^ (c &&& 0x1f).toNat) : readUnformatted .new ctb data pos = .ub := by
  simp only [readUnformatted]
  rw [hc, Out.ok_bind, if_pos hpart]
  have hs : substr data (pos + 1) (2 ^ (c &&& 0x1f).toNat) = .ok ((data.drop (pos + 1)).take (2 ^ (c &&& 0x1f).toNat)) := by
    unfold substr
    rw [if_neg (by omega)]
  rw [hs, Out.ok_bind]
  have : ∀ acc, partialLoop data (data.length + 1) (pos + 1 + 2 ^ (c &&& 0x1f).toNat) acc = .ub := by
    intro acc
    unfold partialLoop
    rw [(charAt_ub_iff _ _).mpr hlong]
    rfl
  rw [this]
  rfl

/-! ### Packet bodies

A body that lies within the input (`start + length ≤ src.length`, not empty) is read outside the input exactly in these
cases. -/

theorem Out.bind_ub_iff {α β : Type} {x : Out α} {f : α → Out β} :
    (x >>= f) = .ub ↔ x = .ub ∨ ∃ a, x = .ok a ∧ f a = .ub := by
  cases x with
  | ok a => simp
  | throw => simp
  | ub => simp
  | diverge => simp

theorem Out.map_ub_iff {α β : Type} {x : Out α} {f : α → β} : (f <$> x) = .ub ↔ x = .ub := by
  cases x <;> simp

theorem tagRead_ub_iff {α : Type} (fresh : α) (actual : Bytes → Nat → Nat → Out (α × Nat)) (s : Span) (c : Bool) :
    tagRead fresh actual s c = .ub ↔ s.length ≠ 0 ∧ actual s.src s.start s.length = .ub := by
  unfold tagRead
  split_ifs with h
  · simp [h]
  · rw [Out.bind_ub_iff]
    constructor
    · rintro (h1 | ⟨⟨a, p⟩, -, h1⟩)
      · exact ⟨h, h1⟩
      · simp only at h1; split_ifs at h1
    · rintro ⟨-, h1⟩
      exact .inl h1

/-- The packets that carry octets only: compressed data, encrypted data, marker, literal data, trust, user ID, integrity
protected data, modification detection code, and the private ones. -/
def isDataTag (t : Nat) : Prop := t ∈ [8, 9, 10, 11, 12, 13, 18, 19, 60, 61, 62, 63]

/-- Packets that carry octets only are read within the input, if their body starts there (with an octet to spare for literal data). -/
theorem C47_data_packets (readE : Bytes → Out E) (t : Nat) (s : Span) (ht : isDataTag t)
    (hs : s.start + s.length ≤ s.src.length) : Body.parse readE t s ≠ .ub := by
  have hstr : ∀ d p l, Body.readString d p l ≠ .ub := fun d p l =>
    Out.bind_ne_ub (substr_ne_ub _ _ _) fun _ _ => by simp
  have hos : ∀ d p l, p ≤ d.length → Body.readOctetString d p l ≠ .ub := fun d p l h =>
    Out.bind_ne_ub (charAt_ne_ub h) fun _ _ => Out.bind_ne_ub (substr_ne_ub _ _ _) fun _ _ => by simp
  have hlit : s.length ≠ 0 → Tag11.actualRead s.src s.start s.length ≠ .ub := by
    intro h0
    unfold Tag11.actualRead
    refine Out.bind_ne_ub (charAt_ne_ub (by omega)) fun _ _ => Out.bind_ne_ub (charAt_ne_ub (by omega)) fun _ _ => ?_
    exact Out.bind_ne_ub (substr_ne_ub _ _ _) fun _ _ => Out.bind_ne_ub (substr_ne_ub _ _ _) fun _ _ =>
      Out.bind_ne_ub (substr_ne_ub _ _ _) fun _ _ => by simp
  have hm : ∀ {α β : Type} (f : α → β) (x : Out α), x ≠ .ub → (f <$> x) ≠ .ub := fun f x hx => Out.map_ne_ub hx
  simp only [isDataTag, List.mem_cons, List.not_mem_nil, or_false] at ht
  rcases ht with rfl | rfl | rfl | rfl | rfl | rfl | rfl | rfl | rfl | rfl | rfl | rfl <;> simp only [Body.parse] <;>
    refine hm _ _ fun h => ?_ <;> obtain ⟨h0, h⟩ := (tagRead_ub_iff _ _ _ _).mp h
  · exact hos _ _ _ (by omega) h
  · exact hstr _ _ _ h
  · exact hstr _ _ _ h
  · exact hlit h0 h
  · exact hstr _ _ _ h
  · exact hstr _ _ _ h
  · exact hos _ _ _ (by omega) h
  · exact hstr _ _ _ h
  · exact hstr _ _ _ h
  · exact hstr _ _ _ h
  · exact hstr _ _ _ h
  · exact hstr _ _ _ h

example (readE : Bytes → Out E) : Body.parse readE 13 ⟨[0xCD, 2, 65, 66], 2, 2, false⟩ = .ok (.userId [65, 66]) := by rfl

theorem untilLoop_ub {α : Type} (item : Nat → Out (α × Nat)) (stop fuel pos : Nat)
    (h : untilLoop item stop fuel pos = .ub) : ∃ p, p < stop ∧ item p = .ub := by
  induction fuel generalizing pos with
  | zero => simp [untilLoop] at h
  | succ n ih =>
    unfold untilLoop at h
    split_ifs at h with hp
    rcases Out.bind_ub_iff.mp h with h | ⟨⟨a, q⟩, -, h⟩
    · exact ⟨pos, hp, h⟩
    · rcases Out.bind_ub_iff.mp h with h | ⟨⟨a, q⟩, -, h⟩
      · exact ih _ h
      · simp at h

/-- Public-key encrypted session keys: the input ends before the algorithm octet. -/
theorem C47_pkesk_iff (s : Span) (hs : s.start + s.length ≤ s.src.length) (h0 : s.length ≠ 0) :
    Tag1.readAt s = .ub ↔ s.src.length < s.start + 9 := by
  unfold Tag1.readAt
  rw [tagRead_ub_iff]
  simp only [h0, ne_eq, not_false_eq_true, true_and, Tag1.actualRead]
  obtain ⟨v, hv⟩ := charAt_ok_of_le (s := s.src) (i := s.start) (by omega)
  have hk : substr s.src (s.start + 1) 8 = .ok ((s.src.drop (s.start + 1)).take 8) := by
    unfold substr; rw [if_neg (by omega)]
  rw [hv, Out.ok_bind, hk, Out.ok_bind]
  constructor
  · intro h
    by_contra hl
    rcases Out.bind_ub_iff.mp h with h | ⟨a, -, h⟩
    · exact hl ((charAt_ub_iff _ _).mp h)
    · rcases Out.bind_ub_iff.mp h with h | ⟨a, -, h⟩
      · obtain ⟨p, hp, h⟩ := untilLoop_ub _ _ _ _ h
        have := (C47_mpi_iff _ _).mp h
        omega
      · simp at h
  · intro h
    rw [(charAt_ub_iff _ _).mpr h]
    rfl

/-- Symmetric-key encrypted session keys: the input ends before the string-to-key specifier. -/
theorem C47_skesk_iff (s : Span) (hs : s.start + s.length ≤ s.src.length) (h0 : s.length ≠ 0) :
    Tag3.readAt s = .ub ↔ s.src.length < s.start + 3 := by
  unfold Tag3.readAt
  rw [tagRead_ub_iff]
  simp only [h0, ne_eq, not_false_eq_true, true_and, Tag3.actualRead]
  obtain ⟨v, hv⟩ := charAt_ok_of_le (s := s.src) (i := s.start) (by omega)
  obtain ⟨c, hc⟩ := charAt_ok_of_le (s := s.src) (i := s.start + 1) (by omega)
  rw [hv, Out.ok_bind, hc, Out.ok_bind]
  constructor
  · intro h
    rcases Out.bind_ub_iff.mp h with h | ⟨⟨a, p⟩, -, h⟩
    · have := (C47_s2k_iff _ _).mp h; omega
    · rcases Out.bind_ub_iff.mp h with h | ⟨a, -, h⟩
      · unfold Tag3.readEsk at h
        split_ifs at h
        exact absurd h (Out.bind_ne_ub (substr_ne_ub _ _ _) fun _ _ => by simp)
      · simp at h
  · intro h
    rw [(C47_s2k_iff _ _).mpr (by omega)]
    rfl

/-- One-pass signatures: the input ends before the public key algorithm. -/
theorem C47_one_pass_iff (s : Span) (h0 : s.length ≠ 0) :
    tagRead Tag4.fresh Tag4.actualRead s = .ub ↔ s.src.length < s.start + 3 := by
  rw [tagRead_ub_iff]
  simp only [h0, ne_eq, not_false_eq_true, true_and, Tag4.actualRead]
  constructor
  · intro h
    by_contra hl
    refine absurd h ?_
    refine Out.bind_ne_ub (charAt_ne_ub (by omega)) fun _ _ => Out.bind_ne_ub (charAt_ne_ub (by omega)) fun _ _ => ?_
    refine Out.bind_ne_ub (charAt_ne_ub (by omega)) fun _ _ => Out.bind_ne_ub (charAt_ne_ub (by omega)) fun _ _ => ?_
    refine Out.bind_ne_ub (substr_ne_ub _ _ _) fun k hk => Out.bind_ne_ub ?_ fun k' hk' => ?_
    · unfold Tag4.checkKeyid; split_ifs <;> simp
    · unfold Tag4.checkKeyid at hk'
      split_ifs at hk' with h8
      unfold substr at hk
      split_ifs at hk
      obtain rfl := Out.ok.inj hk
      simp only [List.length_take, List.length_drop] at h8
      exact Out.bind_ne_ub (charAt_ne_ub (by omega)) fun _ _ => by simp
  · intro h
    rw [Out.bind_ub_iff]
    by_cases h1 : s.src.length < s.start
    · exact .inl ((charAt_ub_iff _ _).mpr h1)
    obtain ⟨a, ha⟩ := charAt_ok_of_le (s := s.src) (i := s.start) (by omega)
    refine .inr ⟨a, ha, ?_⟩
    rw [Out.bind_ub_iff]
    by_cases h2 : s.src.length < s.start + 1
    · exact .inl ((charAt_ub_iff _ _).mpr h2)
    obtain ⟨a, ha⟩ := charAt_ok_of_le (s := s.src) (i := s.start + 1) (by omega)
    refine .inr ⟨a, ha, ?_⟩
    rw [Out.bind_ub_iff]
    by_cases h3 : s.src.length < s.start + 2
    · exact .inl ((charAt_ub_iff _ _).mpr h3)
    obtain ⟨a, ha⟩ := charAt_ok_of_le (s := s.src) (i := s.start + 2) (by omega)
    refine .inr ⟨a, ha, ?_⟩
    rw [Out.bind_ub_iff]
    exact .inl ((charAt_ub_iff _ _).mpr (by omega))

/-- Key packets (also the public part of secret ones): the input ends before the algorithm octet, or one of the integers
starts at or behind the end of the input. -/
theorem C47_key_iff (data : Bytes) (pos : Nat) (v : UInt8) (hp : pos < data.length) (hv : charAt data pos = .ok v) :
    KeyPkt.readCommon data pos = .ub ↔
      (v < 4 ∧ (data.length < pos + 7 ∨ readMPIs data 2 (pos + 8) = .ub)) ∨
      (v = 4 ∧ (data.length < pos + 5 ∨
        ∃ pka n, charAt data (pos + 5) = .ok pka ∧ KeyPkt.mpiCount pka = some n ∧ readMPIs data n (pos + 6) = .ub)) := by
  unfold KeyPkt.readCommon
  have hk : substr data (pos + 1) 4 = .ok ((data.drop (pos + 1)).take 4) := by
    unfold substr; rw [if_neg (by omega)]
  rw [hv, Out.ok_bind, hk, Out.ok_bind]
  by_cases h3 : v < 4
  · have h4 : v ≠ 4 := by rintro rfl; exact absurd h3 (by decide)
    simp only [h3, if_true, true_and, h4, false_and, or_false]
    constructor
    · intro h
      by_cases hl : data.length < pos + 7
      · exact .inl hl
      obtain ⟨a, ha⟩ := charAt_ok_of_le (s := data) (i := pos + 5) (by omega)
      obtain ⟨b, hb⟩ := charAt_ok_of_le (s := data) (i := pos + 6) (by omega)
      obtain ⟨c, hc⟩ := charAt_ok_of_le (s := data) (i := pos + 7) (by omega)
      rw [ha, Out.ok_bind, hb, Out.ok_bind, hc, Out.ok_bind] at h
      rcases Out.bind_ub_iff.mp h with h | ⟨a, -, h⟩
      · exact .inr h
      · simp at h
    · rintro (h | h)
      · rw [Out.bind_ub_iff, charAt_ub_iff]
        by_cases h5 : data.length < pos + 5
        · exact .inl h5
        obtain ⟨a, ha⟩ := charAt_ok_of_le (s := data) (i := pos + 5) (by omega)
        refine .inr ⟨a, ha, ?_⟩
        rw [Out.bind_ub_iff, charAt_ub_iff]
        by_cases h6 : data.length < pos + 6
        · exact .inl h6
        obtain ⟨a, ha⟩ := charAt_ok_of_le (s := data) (i := pos + 6) (by omega)
        refine .inr ⟨a, ha, ?_⟩
        rw [Out.bind_ub_iff, charAt_ub_iff]
        exact .inl (by omega)
      · by_cases hl : data.length < pos + 7
        · rw [Out.bind_ub_iff, charAt_ub_iff]
          by_cases h5 : data.length < pos + 5
          · exact .inl h5
          obtain ⟨a, ha⟩ := charAt_ok_of_le (s := data) (i := pos + 5) (by omega)
          refine .inr ⟨a, ha, ?_⟩
          rw [Out.bind_ub_iff, charAt_ub_iff]
          by_cases h6 : data.length < pos + 6
          · exact .inl h6
          obtain ⟨a, ha⟩ := charAt_ok_of_le (s := data) (i := pos + 6) (by omega)
          refine .inr ⟨a, ha, ?_⟩
          rw [Out.bind_ub_iff, charAt_ub_iff]
          exact .inl (by omega)
        · obtain ⟨a, ha⟩ := charAt_ok_of_le (s := data) (i := pos + 5) (by omega)
          obtain ⟨b, hb⟩ := charAt_ok_of_le (s := data) (i := pos + 6) (by omega)
          obtain ⟨c, hc⟩ := charAt_ok_of_le (s := data) (i := pos + 7) (by omega)
          rw [ha, Out.ok_bind, hb, Out.ok_bind, hc, Out.ok_bind, h]
          rfl
  · by_cases h4 : v = 4
    · have h44 : ¬ (4 : UInt8) < 4 := by decide
      simp only [h4, h44, if_true, if_false, true_and, false_and, false_or]
      constructor
      · intro h
        rcases Out.bind_ub_iff.mp h with h | ⟨pka, hpka, h⟩
        · exact .inl ((charAt_ub_iff _ _).mp h)
        · right
          cases hm : KeyPkt.mpiCount pka with
          | none => rw [hm] at h; cases h
          | some n =>
            rw [hm] at h
            rcases Out.bind_ub_iff.mp h with h | ⟨a, -, h⟩
            · exact ⟨pka, n, hpka, hm, h⟩
            · simp at h
      · rintro (h | ⟨pka, n, hpka, hm, h⟩)
        · rw [(charAt_ub_iff _ _).mpr h]; rfl
        · rw [hpka, Out.ok_bind, hm]
          simp only
          rw [h]
          rfl
    · simp [h3, h4]

/-- One user attribute subpacket: the input ends within the length octets. -/
theorem C47_attribute_iff (data : Bytes) (pos : Nat) (c : UInt8) (hp : pos < data.length) (hc : charAt data pos = .ok c) :
    Attr.readItem data pos = .ub ↔ (192 ≤ c ∧ c < 255 ∧ data.length < pos + 2) ∨ (c = 255 ∧ data.length < pos + 5) := by
  have hty : ∀ (len p : Nat), (do
      let type ← charAt data p
      if type ≠ 1 then Out.throw
      else do
        let d ← substr data (p + 1) (subSz len 1)
        return (Attr.read d, p + len) : Out (Attr × Nat)) = .ub ↔ data.length < p := by
    intro len p
    rw [Out.bind_ub_iff, charAt_ub_iff]
    constructor
    · rintro (h | ⟨a, -, h⟩)
      · exact h
      · split_ifs at h
        exact absurd h (Out.bind_ne_ub (substr_ne_ub _ _ _) fun _ _ => by simp)
    · exact fun h => .inl h
  unfold Attr.readItem readSubLength
  rw [hc, Out.ok_bind]
  split_ifs with h1 h2
  · have h3 : ¬ 192 ≤ c := UInt8.not_le.mpr h1
    have h4 : c ≠ 255 := by rintro rfl; exact absurd h1 (by decide)
    simp only [h3, h4, false_and, or_self, iff_false]
    unfold readOneOctet
    rw [hc, Out.ok_bind]
    intro h
    have := (hty c.toNat (pos + 1)).mp h
    omega
  · have h3 : 192 ≤ c := UInt8.not_lt.mp h1
    have h4 : c ≠ 255 := by rintro rfl; exact absurd h2 (by decide)
    simp only [h3, h2, true_and, h4, false_and, or_false]
    obtain ⟨d, hd⟩ := charAt_ok_of_le (s := data) (i := pos + 1) (by omega)
    unfold readTwoOctet
    simp only
    rw [hc, Out.ok_bind, hd, Out.ok_bind]
    exact hty _ _
  · have h4 : c = 255 := by
      have := UInt8.not_lt.mp h2
      exact UInt8.toNat.inj (by have h5 := UInt8.le_iff_toNat_le.mp this; have := c.toNat_lt; simp at h5 ⊢; omega)
    subst h4
    have h5 : ¬ (255 : UInt8) < 255 := by decide
    simp only [h5, false_and, and_false, false_or, true_and]
    unfold readFiveOctet
    have hk : substr data (pos + 1) 4 = .ok ((data.drop (pos + 1)).take 4) := by
      unfold substr; rw [if_neg (by omega)]
    rw [hk, Out.ok_bind]
    exact hty _ _

/-! ### From octets -/

/-- Where reading outside the input can come from: a partial body length, a body that the input cuts short, or one of the
structured packets. -/
theorem C47_packet (readE : Bytes → Out E) (data : Bytes) (pos : Nat) (hp : pos < data.length)
    (h : readPacket (Pkt.parse readE) data pos = .ub) :
    ∃ ctb fmt tag p, readPacketHeader data pos = .ok (ctb, fmt, tag, p) ∧
      ((fmt = .new ∧ ∃ c, charAt data p = .ok c ∧ 224 ≤ c ∧ c ≠ 255) ∨
       ∃ s p', readUnformatted fmt ctb data p = .ok (s, p') ∧
        (s.src.length < s.start + s.length ∨ tag ∈ [1, 2, 3, 4, 5, 6, 7, 14, 17])) := by
  unfold readPacket at h
  rcases Out.bind_ub_iff.mp h with h | ⟨⟨ctb, fmt, tag, p⟩, hh, h⟩
  · unfold readPacketHeader at h
    rcases Out.bind_ub_iff.mp h with h | ⟨c, -, h⟩
    · exact absurd h (charAt_ne_ub (by omega))
    · split_ifs at h
  · refine ⟨ctb, fmt, tag, p, hh, ?_⟩
    have hpp : p ≤ data.length := by have := readPacketHeader_pos hh; omega
    rcases Out.bind_ub_iff.mp h with h | ⟨⟨s, p'⟩, hs, h⟩
    · left
      by_contra hn
      refine C47_framing fmt ctb data p hpp (fun hf c hc hcc => hn ⟨hf, c, hc, hcc⟩) h
    · right
      refine ⟨s, p', hs, ?_⟩
      simp only at h
      split_ifs at h with h1 h2
      by_contra hn
      rw [not_or] at hn
      rcases Out.bind_ub_iff.mp h with h | ⟨a, -, h⟩
      · have hb : Body.parse readE tag s ≠ .ub := by
          by_cases hd : isDataTag tag
          · exact C47_data_packets readE tag s hd (by omega)
          · simp only [isDataTag, List.mem_cons, List.not_mem_nil, or_false, not_or] at hd hn
            have ht : tag = 0 ∨ 64 ≤ tag := by
              simp only [knownTag] at h2
              simp at h2
              omega
            rcases ht with rfl | ht
            · simp [Body.parse]
            · unfold Body.parse
              split <;> first | omega | simp
        unfold Pkt.parse at h
        rcases Out.bind_ub_iff.mp h with h | ⟨a, -, h⟩
        · exact hb h
        · simp at h
      · simp at h

theorem readRaw_short {α : Type} (body : Nat → Fmt → Span → Out α) (t : Nat) (ctb : UInt8) (b : Bytes) (hl : b.length < 192)
    (hh : ctb &&& 0x80 ≠ 0 ∧ ctb &&& 0x40 ≠ 0 ∧ (ctb &&& 0x3f).toNat = t) (hk : knownTag t = true)
    (h : body t .new ⟨[ctb, UInt8.ofNat b.length] ++ b, 2, b.length, false⟩ = .ub) :
    readRaw body ([ctb, UInt8.ofNat b.length] ++ b) = .ub := by
  set data := [ctb, UInt8.ofNat b.length] ++ b with hdata
  have hdl : data.length = b.length + 2 := by simp [hdata]
  have hto : (UInt8.ofNat b.length).toNat = b.length := by simp; omega
  have hlt : UInt8.ofNat b.length < 192 := by
    rw [UInt8.lt_iff_toNat_lt, hto]; simpa using hl
  have hge : ¬ (224 ≤ UInt8.ofNat b.length ∧ UInt8.ofNat b.length ≠ 255) := by
    rintro ⟨h1, -⟩
    rw [UInt8.le_iff_toNat_le, hto] at h1
    simp at h1
    omega
  have h0 : charAt data 0 = .ok ctb := by simp [hdata, charAt]
  have h1 : charAt data 1 = .ok (UInt8.ofNat b.length) := by simp [hdata, charAt]
  have hu : readUnformatted .new ctb data 1 = .ok (⟨data, 2, b.length, false⟩, 2 + b.length) := by
    simp only [readUnformatted]
    rw [h1, Out.ok_bind, if_neg hge]
    unfold newDefinite readOneOctet
    rw [if_pos hlt, h1]
    simp only [Out.ok_bind, hto]
    rfl
  have hhd : readPacketHeader data 0 = .ok (ctb, .new, t, 1) := by
    unfold readPacketHeader
    rw [h0, Out.ok_bind, if_neg hh.1, if_pos hh.2.1, hh.2.2]
  have hp : readPacket body data 0 = .ub := by
    unfold readPacket
    rw [hhd, Out.ok_bind]
    simp only
    rw [hu, Out.ok_bind]
    simp only [Bool.false_and, Bool.false_eq_true, if_false, hk, Bool.not_true]
    rw [h]
    rfl
  unfold readRaw readRawLoop
  rw [if_pos (by omega), hp]
  rfl

/-- **The property fails.** One packet with a complete header, cut short or with a body that is too short, is enough: session keys of 1
to 8 octets, symmetric session keys and one-pass signatures of 1 or 2 octets, key packets (of versions up to 4) of 1 to 4 octets,
signatures (of version 4) of 1 or 2 octets. -/
theorem C47_short_packets_ub (n : Nat) (t : Nat) (b : Bytes) (hb : b ≠ [])
    (h : (t = 1 ∧ b.length < 9) ∨ ((t = 3 ∨ t = 4) ∧ b.length < 3) ∨
      ((t = 5 ∨ t = 6 ∨ t = 7 ∨ t = 14) ∧ b.length < 5 ∧ b.headD 0 ≤ 4) ∨
      (t = 2 ∧ b.length < 3 ∧ b.headD 0 = 4)) :
    readRaw (Pkt.parse (readSigAt n)) ([0xC0 ||| UInt8.ofNat t, UInt8.ofNat b.length] ++ b) = .ub := by
  have hb0 : b.length ≠ 0 := by simpa using hb
  have hpos : 0 < b.length := Nat.pos_of_ne_zero hb0
  have hlen : ∀ c : UInt8, ([c, UInt8.ofNat b.length] ++ b).length = b.length + 2 := by simp
  have hhd : ∀ c : UInt8, charAt ([c, UInt8.ofNat b.length] ++ b) 2 = .ok (b.headD 0) := by
    intro c
    cases b with
    | nil => simp at hb
    | cons x l => simp [charAt]
  have hlift : ∀ t s, Body.parse (readSigAt n) t s = .ub → Pkt.parse (readSigAt n) t .new s = .ub := by
    intro t s h
    unfold Pkt.parse
    rw [h]
    rfl
  have hkey : ∀ c : UInt8, b.length < 5 → b.headD 0 ≤ 4 →
      KeyPkt.readCommon ([c, UInt8.ofNat b.length] ++ b) 2 = .ub := by
    intro c h5 hv
    refine (C47_key_iff _ _ (b.headD 0) (by rw [hlen]; omega) (hhd c)).mpr ?_
    rcases Nat.lt_or_ge (b.headD 0).toNat 4 with h4 | h4
    · exact .inl ⟨UInt8.lt_iff_toNat_lt.mpr h4, .inl (by rw [hlen]; omega)⟩
    · refine .inr ⟨UInt8.toNat.inj ?_, .inl (by rw [hlen]; omega)⟩
      have := UInt8.le_iff_toNat_le.mp hv
      have e : (4 : UInt8).toNat = 4 := rfl
      omega
  rcases h with ⟨rfl, h⟩ | ⟨ht, h⟩ | ⟨ht, h, hv⟩ | ⟨rfl, h, hv⟩
  · refine readRaw_short _ 1 _ b (by omega) (by decide) (by decide) (hlift _ _ (Out.map_ub_iff.mpr ?_))
    exact (C47_pkesk_iff _ (by rw [hlen]; simp only; omega) hb0).mpr (by rw [hlen]; simp only; omega)
  · rcases ht with rfl | rfl
    · refine readRaw_short _ 3 _ b (by omega) (by decide) (by decide) (hlift _ _ (Out.map_ub_iff.mpr ?_))
      exact (C47_skesk_iff _ (by rw [hlen]; simp only; omega) hb0).mpr (by rw [hlen]; simp only; omega)
    · refine readRaw_short _ 4 _ b (by omega) (by decide) (by decide) (hlift _ _ (Out.map_ub_iff.mpr ?_))
      exact (C47_one_pass_iff _ hb0).mpr (by rw [hlen]; simp only; omega)
  · have hk6 : ∀ c : UInt8, KeyPkt.readAt ⟨[c, UInt8.ofNat b.length] ++ b, 2, b.length, false⟩ = .ub := fun c =>
      (tagRead_ub_iff _ _ _ _).mpr ⟨hb0, hkey c h hv⟩
    have hk5 : ∀ c : UInt8, Tag5.readAt ⟨[c, UInt8.ofNat b.length] ++ b, 2, b.length, false⟩ = .ub := by
      intro c
      refine (tagRead_ub_iff _ _ _ _).mpr ⟨hb0, ?_⟩
      unfold Tag5.actualRead
      simp only
      rw [hkey c h hv]
      rfl
    rcases ht with rfl | rfl | rfl | rfl
    · exact readRaw_short _ 5 _ b (by omega) (by decide) (by decide) (hlift _ _ (Out.map_ub_iff.mpr (hk5 _)))
    · exact readRaw_short _ 6 _ b (by omega) (by decide) (by decide) (hlift _ _ (Out.map_ub_iff.mpr (hk6 _)))
    · exact readRaw_short _ 7 _ b (by omega) (by decide) (by decide) (hlift _ _ (Out.map_ub_iff.mpr (hk5 _)))
    · exact readRaw_short _ 14 _ b (by omega) (by decide) (by decide) (hlift _ _ (Out.map_ub_iff.mpr (hk6 _)))
  · refine readRaw_short _ 2 _ b (by omega) (by decide) (by decide) (hlift _ _ (Out.map_ub_iff.mpr ?_))
    refine (tagRead_ub_iff _ _ _ _).mpr ⟨hb0, ?_⟩
    unfold Tag2.actualRead
    simp only
    rw [hhd, Out.ok_bind, hv, if_neg (by decide), if_pos rfl]
    unfold Tag2.readV4
    obtain ⟨a, ha⟩ := charAt_ok_of_le (s := [0xC0 ||| UInt8.ofNat 2, UInt8.ofNat b.length] ++ b) (i := 2 + 1) (by rw [hlen]; omega)
    rw [ha, Out.ok_bind, Out.bind_ub_iff, charAt_ub_iff]
    by_cases h1 : b.length < 2
    · exact .inl (by rw [hlen]; omega)
    obtain ⟨a, ha⟩ := charAt_ok_of_le (s := [0xC0 ||| UInt8.ofNat 2, UInt8.ofNat b.length] ++ b) (i := 2 + 2) (by rw [hlen]; omega)
    refine .inr ⟨a, ha, ?_⟩
    rw [Out.bind_ub_iff, charAt_ub_iff]
    exact .inl (by rw [hlen]; omega)

example (n : Nat) : readRaw (Pkt.parse (readSigAt n)) [0xC6, 3, 4, 0, 0] = .ub :=
  C47_short_packets_ub n 6 [4, 0, 0] (by decide) (by decide)

/-- The property holds of a user ID packet that is shorter than it says: the library takes what there is. -/
example (n : Nat) : readRaw (Pkt.parse (readSigAt n)) [0xCD, 3, 65] = .ok [⟨.new, false, .userId [65]⟩] := by rfl

end OpenPGP
