import Verif.Model.Crypt
import Verif.Model.Armor
import Verif.Model.Cleartext

/-! Which readers consume input, and what that means for the loops around them. -/
namespace OpenPGP

theorem Out.bind_ne_diverge {α β : Type} {x : Out α} {f : α → Out β} (hx : x ≠ .diverge)
    (hf : ∀ a, x = .ok a → f a ≠ .diverge) : (x >>= f) ≠ .diverge := by
  cases x with
  | ok a => exact hf a rfl
  | throw => simp
  | ub => simp
  | diverge => exact absurd rfl hx

theorem Out.map_ne_diverge {α β : Type} {x : Out α} {f : α → β} (hx : x ≠ .diverge) : (f <$> x) ≠ .diverge := by
  cases x with
  | ok a => simp
  | throw => simp
  | ub => simp
  | diverge => exact absurd rfl hx

theorem charAt_nd (s : Bytes) (i : Nat) : charAt s i ≠ .diverge := by
  unfold charAt; split_ifs <;> simp
theorem substr_nd (s : Bytes) (i n : Nat) : substr s i n ≠ .diverge := by
  unfold substr; split_ifs <;> simp
theorem mapAt_nd {α : Type} (x : Option α) : mapAt x ≠ .diverge := by cases x <;> simp [mapAt]

theorem charAt_le {s : Bytes} {i : Nat} {c : UInt8} (h : charAt s i = .ok c) : i ≤ s.length := by
  unfold charAt at h
  split_ifs at h with h1 h2
  · omega
  · omega

theorem hexStep_nd (l : Bytes) (x : Out Nat) (h : x ≠ .diverge) : l.foldl hexStep x ≠ .diverge := by
  induction l generalizing x with
  | nil => exact h
  | cons c l ih =>
    apply ih
    unfold hexStep
    apply Out.bind_ne_diverge h
    intro a _
    split <;> simp

theorem rawtompi_nd (r : Bytes) : rawtompi r ≠ .diverge := by
  unfold rawtompi hextompi
  split_ifs
  · simp
  · exact hexStep_nd _ _ (by simp)

theorem readMPI_nd (data : Bytes) (pos : Nat) : readMPI data pos ≠ .diverge := by
  unfold readMPI
  refine Out.bind_ne_diverge (charAt_nd _ _) fun _ _ => Out.bind_ne_diverge (charAt_nd _ _) fun _ _ => ?_
  exact Out.bind_ne_diverge (substr_nd _ _ _) fun _ _ => Out.bind_ne_diverge (rawtompi_nd _) fun _ _ => by simp

theorem readMPI_progress {data : Bytes} {pos a pos' : Nat} (h : readMPI data pos = .ok (a, pos')) : pos + 2 ≤ pos' := by
  unfold readMPI at h
  obtain ⟨_, -, h⟩ := Out.bind_eq_ok.mp h
  obtain ⟨_, -, h⟩ := Out.bind_eq_ok.mp h
  obtain ⟨_, -, h⟩ := Out.bind_eq_ok.mp h
  obtain ⟨_, -, h⟩ := Out.bind_eq_ok.mp h
  obtain ⟨-, rfl⟩ := Prod.mk.inj (Out.ok.inj h)
  omega

theorem readMPIs_nd (data : Bytes) (n pos : Nat) : readMPIs data n pos ≠ .diverge := by
  induction n generalizing pos with
  | zero => simp [readMPIs]
  | succ n ih =>
    unfold readMPIs
    exact Out.bind_ne_diverge (readMPI_nd _ _) fun _ _ => Out.bind_ne_diverge (ih _) fun _ _ => by simp

theorem readAllMPIs_nd (data : Bytes) (fuel pos : Nat) (h0 : 0 < fuel) (h : data.length < pos + fuel) :
    readAllMPIs data fuel pos ≠ .diverge := by
  induction fuel generalizing pos with
  | zero => omega
  | succ n ih =>
    unfold readAllMPIs
    split_ifs with hp
    · refine Out.bind_ne_diverge (readMPI_nd _ _) fun ⟨a, pos'⟩ ha => ?_
      have := readMPI_progress ha
      exact Out.bind_ne_diverge (ih _ (by omega) (by omega)) fun _ _ => by simp
    · simp

/-- A loop whose item makes progress ends within `stop - pos + 1` rounds. -/
theorem untilLoop_nd {α : Type} (item : Nat → Out (α × Nat)) (stop : Nat) (hnd : ∀ p, item p ≠ .diverge)
    (hpr : ∀ p a p', item p = .ok (a, p') → p < p') (fuel pos : Nat) (h0 : 0 < fuel) (h : stop < pos + fuel) :
    untilLoop item stop fuel pos ≠ .diverge := by
  induction fuel generalizing pos with
  | zero => omega
  | succ n ih =>
    unfold untilLoop
    split_ifs with hp
    · refine Out.bind_ne_diverge (hnd _) fun ⟨a, pos'⟩ ha => ?_
      have := hpr _ _ _ ha
      exact Out.bind_ne_diverge (ih _ (by omega) (by omega)) fun _ _ => by simp
    · simp

theorem readOneOctet_nd (data : Bytes) (pos : Nat) : readOneOctet data pos ≠ .diverge :=
  Out.bind_ne_diverge (charAt_nd _ _) fun _ _ => by simp

theorem readTwoOctet_nd (data : Bytes) (pos : Nat) (f : Fmt) : readTwoOctet data pos f ≠ .diverge := by
  cases f
  · exact Out.bind_ne_diverge (substr_nd _ _ _) fun _ _ => by simp
  · exact Out.bind_ne_diverge (charAt_nd _ _) fun _ _ => Out.bind_ne_diverge (charAt_nd _ _) fun _ _ => by simp

theorem readFiveOctet_nd (data : Bytes) (pos : Nat) : readFiveOctet data pos ≠ .diverge :=
  Out.bind_ne_diverge (substr_nd _ _ _) fun _ _ => by simp

theorem readOneOctet_pos {data : Bytes} {pos l p : Nat} (h : readOneOctet data pos = .ok (l, p)) : p = pos + 1 := by
  obtain ⟨_, -, h⟩ := Out.bind_eq_ok.mp h
  exact (Prod.mk.inj (Out.ok.inj h)).2.symm

theorem readTwoOctet_pos {data : Bytes} {pos l p : Nat} {f : Fmt} (h : readTwoOctet data pos f = .ok (l, p)) :
    p = pos + 2 := by
  cases f
  · obtain ⟨_, -, h⟩ := Out.bind_eq_ok.mp h
    exact (Prod.mk.inj (Out.ok.inj h)).2.symm
  · obtain ⟨_, -, h⟩ := Out.bind_eq_ok.mp h
    obtain ⟨_, -, h⟩ := Out.bind_eq_ok.mp h
    exact (Prod.mk.inj (Out.ok.inj h)).2.symm

theorem readFiveOctet_pos {data : Bytes} {pos l p : Nat} (h : readFiveOctet data pos = .ok (l, p)) : p = pos + 5 := by
  obtain ⟨_, -, h⟩ := Out.bind_eq_ok.mp h
  exact (Prod.mk.inj (Out.ok.inj h)).2.symm

theorem readSubLength_nd (data : Bytes) (pos : Nat) : readSubLength data pos ≠ .diverge := by
  unfold readSubLength
  refine Out.bind_ne_diverge (charAt_nd _ _) fun _ _ => ?_
  split_ifs
  · exact readOneOctet_nd _ _
  · exact readTwoOctet_nd _ _ _
  · exact readFiveOctet_nd _ _

theorem readSubLength_pos {data : Bytes} {pos l p : Nat} (h : readSubLength data pos = .ok (l, p)) :
    pos < p := by
  unfold readSubLength at h
  obtain ⟨_, -, h⟩ := Out.bind_eq_ok.mp h
  split_ifs at h
  · have := readOneOctet_pos h; omega
  · have := readTwoOctet_pos h; omega
  · have := readFiveOctet_pos h; omega

/-! ### Framing -/

theorem newDefinite_nd (data : Bytes) (pos : Nat) (c : UInt8) : newDefinite data pos c ≠ .diverge := by
  unfold newDefinite
  split_ifs
  · exact Out.bind_ne_diverge (readOneOctet_nd _ _) fun _ _ => by simp
  · exact Out.bind_ne_diverge (readTwoOctet_nd _ _ _) fun _ _ => by simp
  · exact Out.bind_ne_diverge (readFiveOctet_nd _ _) fun _ _ => by simp
  · simp

theorem newDefinite_pos {data : Bytes} {pos a b p : Nat} {c : UInt8} (h : newDefinite data pos c = .ok (a, b, p)) :
    pos ≤ p := by
  unfold newDefinite at h
  split_ifs at h
  · obtain ⟨⟨x, y⟩, h1, h⟩ := Out.bind_eq_ok.mp h
    have := readOneOctet_pos h1
    have := (Prod.mk.inj (Prod.mk.inj (Out.ok.inj h)).2).2
    omega
  · obtain ⟨⟨x, y⟩, h1, h⟩ := Out.bind_eq_ok.mp h
    have := readTwoOctet_pos h1
    have := (Prod.mk.inj (Prod.mk.inj (Out.ok.inj h)).2).2
    omega
  · obtain ⟨⟨x, y⟩, h1, h⟩ := Out.bind_eq_ok.mp h
    have := readFiveOctet_pos h1
    have := (Prod.mk.inj (Prod.mk.inj (Out.ok.inj h)).2).2
    omega
  · have := (Prod.mk.inj (Prod.mk.inj (Out.ok.inj h)).2).2
    omega

theorem partialLoop_nd (data : Bytes) (fuel pos : Nat) (acc : Bytes) (h0 : 0 < fuel) (h : data.length < pos + fuel) :
    partialLoop data fuel pos acc ≠ .diverge := by
  induction fuel generalizing pos acc with
  | zero => omega
  | succ n ih =>
    unfold partialLoop
    refine Out.bind_ne_diverge (charAt_nd _ _) fun c hc => ?_
    have := charAt_le hc
    split_ifs
    · refine Out.bind_ne_diverge (substr_nd _ _ _) fun _ hs => ?_
      have h1 : pos + 1 ≤ data.length := by
        unfold substr at hs
        split_ifs at hs
        omega
      generalize 2 ^ (c &&& 0x1f).toNat = k
      exact ih _ _ (by omega) (by omega)
    · simp

theorem partialLoop_pos {data : Bytes} {fuel pos p : Nat} {acc b : Bytes} (h : partialLoop data fuel pos acc = .ok (b, p)) :
    pos ≤ p := by
  induction fuel generalizing pos acc with
  | zero => simp [partialLoop] at h
  | succ n ih =>
    unfold partialLoop at h
    obtain ⟨c, -, h⟩ := Out.bind_eq_ok.mp h
    split_ifs at h
    · obtain ⟨_, -, h⟩ := Out.bind_eq_ok.mp h
      have := ih h
      generalize 2 ^ (c &&& 0x1f).toNat = k at this
      omega
    · have := (Prod.mk.inj (Out.ok.inj h)).2
      omega

theorem readUnformatted_nd (fmt : Fmt) (ctb : UInt8) (data : Bytes) (pos : Nat) :
    readUnformatted fmt ctb data pos ≠ .diverge := by
  cases fmt
  · simp only [readUnformatted]
    split_ifs
    · exact Out.bind_ne_diverge (readOneOctet_nd _ _) fun _ _ => by simp
    · exact Out.bind_ne_diverge (readTwoOctet_nd _ _ _) fun _ _ => by simp
    · exact Out.bind_ne_diverge (readFiveOctet_nd _ _) fun _ _ => by simp
    · exact Out.bind_ne_diverge (substr_nd _ _ _) fun _ _ => by simp
  · simp only [readUnformatted]
    refine Out.bind_ne_diverge (charAt_nd _ _) fun c _ => ?_
    split_ifs
    · refine Out.bind_ne_diverge (substr_nd _ _ _) fun _ _ => ?_
      generalize 2 ^ (c &&& 0x1f).toNat = k
      refine Out.bind_ne_diverge (partialLoop_nd _ _ _ _ (by omega) (by omega)) fun ⟨_, _⟩ _ => ?_
      refine Out.bind_ne_diverge (charAt_nd _ _) fun _ _ => ?_
      refine Out.bind_ne_diverge (newDefinite_nd _ _ _) fun ⟨_, _, _⟩ _ => ?_
      exact Out.bind_ne_diverge (substr_nd _ _ _) fun _ _ => by simp
    · exact Out.bind_ne_diverge (newDefinite_nd _ _ _) fun ⟨_, _, _⟩ _ => by simp

theorem readUnformatted_pos {fmt : Fmt} {ctb : UInt8} {data : Bytes} {pos p : Nat} {s : Span}
    (h : readUnformatted fmt ctb data pos = .ok (s, p)) : pos ≤ p := by
  cases fmt
  · simp only [readUnformatted] at h
    split_ifs at h
    · obtain ⟨⟨_, _⟩, h1, h⟩ := Out.bind_eq_ok.mp h
      have := readOneOctet_pos h1
      have := (Prod.mk.inj (Out.ok.inj h)).2
      omega
    · obtain ⟨⟨_, _⟩, h1, h⟩ := Out.bind_eq_ok.mp h
      have := readTwoOctet_pos h1
      have := (Prod.mk.inj (Out.ok.inj h)).2
      omega
    · obtain ⟨⟨_, _⟩, h1, h⟩ := Out.bind_eq_ok.mp h
      have := readFiveOctet_pos h1
      have := (Prod.mk.inj (Out.ok.inj h)).2
      omega
    · obtain ⟨_, -, h⟩ := Out.bind_eq_ok.mp h
      have := (Prod.mk.inj (Out.ok.inj h)).2
      omega
  · simp only [readUnformatted] at h
    obtain ⟨c, -, h⟩ := Out.bind_eq_ok.mp h
    split_ifs at h
    · obtain ⟨_, -, h⟩ := Out.bind_eq_ok.mp h
      obtain ⟨⟨_, _⟩, h1, h⟩ := Out.bind_eq_ok.mp h
      obtain ⟨_, -, h⟩ := Out.bind_eq_ok.mp h
      obtain ⟨⟨_, _, _⟩, h2, h⟩ := Out.bind_eq_ok.mp h
      obtain ⟨_, -, h⟩ := Out.bind_eq_ok.mp h
      generalize 2 ^ (c &&& 0x1f).toNat = k at h1
      have := partialLoop_pos h1
      have := newDefinite_pos h2
      have := (Prod.mk.inj (Out.ok.inj h)).2
      simp only at *
      omega
    · obtain ⟨⟨_, _, _⟩, h2, h⟩ := Out.bind_eq_ok.mp h
      have := newDefinite_pos h2
      have := (Prod.mk.inj (Out.ok.inj h)).2
      simp only at *
      omega

theorem readPacketHeader_nd (data : Bytes) (pos : Nat) : readPacketHeader data pos ≠ .diverge := by
  unfold readPacketHeader
  refine Out.bind_ne_diverge (charAt_nd _ _) fun _ _ => ?_
  split_ifs <;> simp

theorem readPacketHeader_pos {data : Bytes} {pos p t : Nat} {c : UInt8} {f : Fmt}
    (h : readPacketHeader data pos = .ok (c, f, t, p)) : p = pos + 1 := by
  unfold readPacketHeader at h
  obtain ⟨_, -, h⟩ := Out.bind_eq_ok.mp h
  split_ifs at h
  · exact ((Prod.mk.inj (Prod.mk.inj (Prod.mk.inj (Out.ok.inj h)).2).2).2).symm
  · exact ((Prod.mk.inj (Prod.mk.inj (Prod.mk.inj (Out.ok.inj h)).2).2).2).symm

/-- A packet that was read consumed at least its first octet. -/
theorem readPacket_progress {α : Type} {body : Nat → Fmt → Span → Out α} {data : Bytes} {pos p : Nat} {a : α}
    (h : readPacket body data pos = .ok (a, p)) : pos < p := by
  unfold readPacket at h
  obtain ⟨⟨_, _, _, _⟩, h1, h⟩ := Out.bind_eq_ok.mp h
  obtain ⟨⟨_, _⟩, h2, h⟩ := Out.bind_eq_ok.mp h
  have := readPacketHeader_pos h1
  have := readUnformatted_pos h2
  simp only at h
  split_ifs at h
  obtain ⟨_, -, h⟩ := Out.bind_eq_ok.mp h
  have := (Prod.mk.inj (Out.ok.inj h)).2
  omega

theorem readUnformatted_src {fmt : Fmt} {ctb : UInt8} {data : Bytes} {pos p : Nat} {s : Span}
    (h : readUnformatted fmt ctb data pos = .ok (s, p)) (hp : s.part = false) : s.src = data := by
  cases fmt
  · simp only [readUnformatted] at h
    split_ifs at h
    · obtain ⟨⟨_, _⟩, h1, h⟩ := Out.bind_eq_ok.mp h
      obtain ⟨rfl, -⟩ := Prod.mk.inj (Out.ok.inj h)
      rfl
    · obtain ⟨⟨_, _⟩, h1, h⟩ := Out.bind_eq_ok.mp h
      obtain ⟨rfl, -⟩ := Prod.mk.inj (Out.ok.inj h)
      rfl
    · obtain ⟨⟨_, _⟩, h1, h⟩ := Out.bind_eq_ok.mp h
      obtain ⟨rfl, -⟩ := Prod.mk.inj (Out.ok.inj h)
      rfl
    · obtain ⟨_, -, h⟩ := Out.bind_eq_ok.mp h
      obtain ⟨rfl, -⟩ := Prod.mk.inj (Out.ok.inj h)
      cases hp
  · simp only [readUnformatted] at h
    obtain ⟨c, -, h⟩ := Out.bind_eq_ok.mp h
    split_ifs at h
    · obtain ⟨_, -, h⟩ := Out.bind_eq_ok.mp h
      obtain ⟨⟨_, _⟩, h1, h⟩ := Out.bind_eq_ok.mp h
      obtain ⟨_, -, h⟩ := Out.bind_eq_ok.mp h
      obtain ⟨⟨_, _, _⟩, h2, h⟩ := Out.bind_eq_ok.mp h
      obtain ⟨_, -, h⟩ := Out.bind_eq_ok.mp h
      obtain ⟨rfl, -⟩ := Prod.mk.inj (Out.ok.inj h)
      cases hp
    · obtain ⟨⟨_, _, _⟩, h2, h⟩ := Out.bind_eq_ok.mp h
      obtain ⟨rfl, -⟩ := Prod.mk.inj (Out.ok.inj h)
      rfl

theorem readPacket_nd {α : Type} (body : Nat → Fmt → Span → Out α) (data : Bytes)
    (hb : ∀ t f (s : Span), (canHavePartial t = false → s.src = data) → body t f s ≠ .diverge) (pos : Nat) :
    readPacket body data pos ≠ .diverge := by
  unfold readPacket
  refine Out.bind_ne_diverge (readPacketHeader_nd _ _) fun ⟨ctb, fmt, tag, p⟩ _ => ?_
  refine Out.bind_ne_diverge (readUnformatted_nd _ _ _ _) fun ⟨s, p'⟩ hs => ?_
  simp only
  split_ifs with h1 h2
  · simp
  · simp
  · refine Out.bind_ne_diverge (hb _ _ _ fun hc => ?_) fun _ _ => by simp
    refine readUnformatted_src hs ?_
    simp only [hc, Bool.not_false, Bool.and_true, Bool.not_eq_true] at h1
    exact h1

theorem readRawLoop_nd {α : Type} (body : Nat → Fmt → Span → Out α) (data : Bytes)
    (hb : ∀ t f (s : Span), (canHavePartial t = false → s.src = data) → body t f s ≠ .diverge) (fuel pos : Nat)
    (h0 : 0 < fuel) (h : data.length < pos + fuel) : readRawLoop body data fuel pos ≠ .diverge := by
  induction fuel generalizing pos with
  | zero => omega
  | succ n ih =>
    unfold readRawLoop
    split_ifs with hp
    · refine Out.bind_ne_diverge (readPacket_nd body data hb _) fun ⟨a, pos'⟩ ha => ?_
      have := readPacket_progress ha
      exact Out.bind_ne_diverge (ih _ (by omega) (by omega)) fun _ _ => by simp
    · simp

theorem readRaw_nd {α : Type} (body : Nat → Fmt → Span → Out α) (data : Bytes)
    (hb : ∀ t f (s : Span), (canHavePartial t = false → s.src = data) → body t f s ≠ .diverge) :
    readRaw body data ≠ .diverge := readRawLoop_nd body data hb _ _ (by omega) (by omega)

/-! ### Packet bodies -/

theorem tagRead_nd {α : Type} (fresh : α) (actual : Bytes → Nat → Nat → Out (α × Nat)) (s : Span) (c : Bool)
    (h : ∀ p l, actual s.src p l ≠ .diverge) : tagRead fresh actual s c ≠ .diverge := by
  unfold tagRead
  split_ifs
  · simp
  · refine Out.bind_ne_diverge (h _ _) fun ⟨_, _⟩ _ => ?_
    simp only
    split_ifs <;> simp

theorem readSalt_nd (data : Bytes) (pos : Nat) : S2K.readSalt data pos ≠ .diverge := by
  unfold S2K.readSalt
  refine Out.bind_ne_diverge (substr_nd _ _ _) fun _ _ => ?_
  split_ifs <;> simp

theorem S2K.read_nd (data : Bytes) (pos : Nat) : S2K.read data pos ≠ .diverge := by
  unfold S2K.read
  refine Out.bind_ne_diverge (charAt_nd _ _) fun _ _ => ?_
  split_ifs
  · exact Out.bind_ne_diverge (charAt_nd _ _) fun _ _ => by simp
  · exact Out.bind_ne_diverge (charAt_nd _ _) fun _ _ => Out.bind_ne_diverge (readSalt_nd _ _) fun _ _ => by simp
  · exact Out.bind_ne_diverge (charAt_nd _ _) fun _ _ => Out.bind_ne_diverge (readSalt_nd _ _) fun _ _ =>
      Out.bind_ne_diverge (charAt_nd _ _) fun _ _ => by simp
  · simp

theorem KeyPkt.readCommon_nd (data : Bytes) (pos : Nat) : KeyPkt.readCommon data pos ≠ .diverge := by
  unfold KeyPkt.readCommon
  refine Out.bind_ne_diverge (charAt_nd _ _) fun _ _ => Out.bind_ne_diverge (substr_nd _ _ _) fun _ _ => ?_
  simp only
  split_ifs
  · exact Out.bind_ne_diverge (charAt_nd _ _) fun _ _ => Out.bind_ne_diverge (charAt_nd _ _) fun _ _ =>
      Out.bind_ne_diverge (charAt_nd _ _) fun _ _ => Out.bind_ne_diverge (readMPIs_nd _ _ _) fun _ _ => by simp
  · refine Out.bind_ne_diverge (charAt_nd _ _) fun _ _ => ?_
    split
    · simp
    · exact Out.bind_ne_diverge (readMPIs_nd _ _ _) fun _ _ => by simp
  · simp

theorem KeyPkt.readAt_nd (s : Span) (c : Bool) : KeyPkt.readAt s c ≠ .diverge :=
  tagRead_nd _ _ _ _ fun _ _ => KeyPkt.readCommon_nd _ _

theorem Tag5.readAt_nd (s : Span) : Tag5.readAt s ≠ .diverge := by
  refine tagRead_nd _ _ _ _ fun p l => ?_
  unfold Tag5.actualRead
  refine Out.bind_ne_diverge (KeyPkt.readCommon_nd _ _) fun ⟨_, _⟩ _ => ?_
  refine Out.bind_ne_diverge (charAt_nd _ _) fun con _ => ?_
  refine Out.bind_ne_diverge ?_ fun ⟨_, _, _⟩ _ => ?_
  · unfold Tag5.readProtection
    split_ifs
    · exact Out.bind_ne_diverge (charAt_nd _ _) fun _ _ => Out.bind_ne_diverge (S2K.read_nd _ _) fun _ _ => by simp
    · simp
  refine Out.bind_ne_diverge ?_ fun _ _ => ?_
  · unfold Tag5.readIV
    split_ifs
    · exact Out.bind_ne_diverge (mapAt_nd _) fun _ _ => substr_nd _ _ _
    · simp
  exact Out.bind_ne_diverge (substr_nd _ _ _) fun _ _ => by simp

theorem Tag1.readAt_nd (s : Span) : Tag1.readAt s ≠ .diverge := by
  refine tagRead_nd _ _ _ _ fun p l => ?_
  unfold Tag1.actualRead
  refine Out.bind_ne_diverge (charAt_nd _ _) fun _ _ => Out.bind_ne_diverge (substr_nd _ _ _) fun _ _ => ?_
  refine Out.bind_ne_diverge (charAt_nd _ _) fun _ _ => Out.bind_ne_diverge ?_ fun _ _ => by simp
  exact untilLoop_nd _ _ (readMPI_nd _) (fun p a p' h => by have := readMPI_progress h; omega) _ _ (by omega) (by omega)

theorem Tag3.readAt_nd (s : Span) : Tag3.readAt s ≠ .diverge := by
  refine tagRead_nd _ _ _ _ fun p l => ?_
  unfold Tag3.actualRead
  refine Out.bind_ne_diverge (charAt_nd _ _) fun _ _ => Out.bind_ne_diverge (charAt_nd _ _) fun _ _ => ?_
  refine Out.bind_ne_diverge (S2K.read_nd _ _) fun ⟨_, _⟩ _ => Out.bind_ne_diverge ?_ fun _ _ => by simp
  unfold Tag3.readEsk
  split_ifs
  · exact Out.bind_ne_diverge (substr_nd _ _ _) fun _ _ => by simp
  · simp

theorem Tag4.actualRead_nd (d : Bytes) (p l : Nat) : Tag4.actualRead d p l ≠ .diverge := by
  unfold Tag4.actualRead
  refine Out.bind_ne_diverge (charAt_nd _ _) fun _ _ => Out.bind_ne_diverge (charAt_nd _ _) fun _ _ => ?_
  refine Out.bind_ne_diverge (charAt_nd _ _) fun _ _ => Out.bind_ne_diverge (charAt_nd _ _) fun _ _ => ?_
  refine Out.bind_ne_diverge (substr_nd _ _ _) fun _ _ => Out.bind_ne_diverge ?_ fun _ _ => ?_
  · unfold Tag4.checkKeyid; split_ifs <;> simp
  exact Out.bind_ne_diverge (charAt_nd _ _) fun _ _ => by simp

theorem Tag11.actualRead_nd (d : Bytes) (p l : Nat) : Tag11.actualRead d p l ≠ .diverge := by
  unfold Tag11.actualRead
  refine Out.bind_ne_diverge (charAt_nd _ _) fun _ _ => Out.bind_ne_diverge (charAt_nd _ _) fun _ _ => ?_
  refine Out.bind_ne_diverge (substr_nd _ _ _) fun _ _ => Out.bind_ne_diverge (substr_nd _ _ _) fun _ _ => ?_
  exact Out.bind_ne_diverge (substr_nd _ _ _) fun _ _ => by simp

theorem Attr.readItem_nd (d : Bytes) (p : Nat) : Attr.readItem d p ≠ .diverge := by
  unfold Attr.readItem
  refine Out.bind_ne_diverge (readSubLength_nd _ _) fun ⟨_, _⟩ _ => Out.bind_ne_diverge (charAt_nd _ _) fun _ _ => ?_
  split_ifs
  · simp
  · exact Out.bind_ne_diverge (substr_nd _ _ _) fun _ _ => by simp

theorem Attr.readItem_progress {d : Bytes} {p p' : Nat} {a : Attr} (h : Attr.readItem d p = .ok (a, p')) : p < p' := by
  unfold Attr.readItem at h
  obtain ⟨⟨_, _⟩, h1, h⟩ := Out.bind_eq_ok.mp h
  have := readSubLength_pos h1
  obtain ⟨_, -, h⟩ := Out.bind_eq_ok.mp h
  split_ifs at h
  obtain ⟨_, -, h⟩ := Out.bind_eq_ok.mp h
  have := (Prod.mk.inj (Out.ok.inj h)).2
  simp only at *
  omega

theorem Attr.readList_nd (d : Bytes) (p l : Nat) : Attr.readList d p l ≠ .diverge :=
  untilLoop_nd _ _ (Attr.readItem_nd _) (fun _ _ _ h => Attr.readItem_progress h) _ _ (by omega) (by omega)

theorem readString_nd (d : Bytes) (p l : Nat) : Body.readString d p l ≠ .diverge :=
  Out.bind_ne_diverge (substr_nd _ _ _) fun _ _ => by simp

theorem readOctetString_nd (d : Bytes) (p l : Nat) : Body.readOctetString d p l ≠ .diverge :=
  Out.bind_ne_diverge (charAt_nd _ _) fun _ _ => Out.bind_ne_diverge (substr_nd _ _ _) fun _ _ => by simp

/-! ### Signatures and their nesting -/

theorem SubBody.read_nd {E : Type} (readE : Bytes → Out E) (fresh : SubBody E) (d : Bytes) (h : readE d ≠ .diverge) :
    SubBody.read readE fresh d ≠ .diverge := by
  unfold SubBody.read
  split_ifs
  · simp
  · cases fresh <;> simp only [SubBody.actualRead, ne_eq, reduceCtorEq, not_false_eq_true]
    exact Out.bind_ne_diverge h fun _ _ => by simp

/-- The pieces handed to the reader of embedded signatures are shorter than the area they come from. -/
theorem readSubpacketsLoop_nd {E : Type} (readE : Bytes → Out E) (data : Bytes)
    (hE : ∀ d : Bytes, d.length < data.length → readE d ≠ .diverge) (fuel pos : Nat) (h0 : 0 < fuel)
    (h : data.length < pos + fuel) : readSubpacketsLoop readE data fuel pos ≠ .diverge := by
  induction fuel generalizing pos with
  | zero => omega
  | succ n ih =>
    unfold readSubpacketsLoop
    split_ifs with hp
    · refine Out.bind_ne_diverge (readSubLength_nd _ _) fun ⟨len, pos'⟩ hl => ?_
      have := readSubLength_pos hl
      refine Out.bind_ne_diverge (charAt_nd _ _) fun c _ => ?_
      split
      · simp
      · refine Out.bind_ne_diverge (substr_nd _ _ _) fun d hd => ?_
        have hlen : d.length < data.length := by
          unfold substr at hd
          split_ifs at hd
          obtain rfl := Out.ok.inj hd
          simp only [List.length_take, List.length_drop]
          omega
        refine Out.bind_ne_diverge (SubBody.read_nd _ _ _ (hE d hlen)) fun _ _ => ?_
        exact Out.bind_ne_diverge (ih _ (by omega) (by omega)) fun _ _ => by simp
    · simp

theorem readSubpackets_nd {E : Type} (readE : Bytes → Out E) (data : Bytes)
    (hE : ∀ d : Bytes, d.length < data.length → readE d ≠ .diverge) : readSubpackets readE data ≠ .diverge :=
  readSubpacketsLoop_nd readE data hE _ _ (by omega) (by omega)

theorem Tag2.readAt_nd {E : Type} (readE : Bytes → Out E) (s : Span)
    (hE : ∀ d : Bytes, d.length < s.src.length → readE d ≠ .diverge) : Tag2.readAt readE s ≠ .diverge := by
  refine tagRead_nd _ _ _ _ fun p l => ?_
  unfold Tag2.actualRead
  refine Out.bind_ne_diverge (charAt_nd _ _) fun _ _ => ?_
  have hsub : ∀ p n d, substr s.src p n = .ok d → readSubpackets readE d ≠ .diverge := by
    intro p n d hd
    have : d.length ≤ s.src.length := by
      unfold substr at hd
      split_ifs at hd
      obtain rfl := Out.ok.inj hd
      simp only [List.length_take, List.length_drop]
      omega
    exact readSubpackets_nd readE d fun d' h => hE d' (by omega)
  split_ifs
  · unfold Tag2.readV3
    refine Out.bind_ne_diverge (charAt_nd _ _) fun _ _ => ?_
    split_ifs
    · simp
    refine Out.bind_ne_diverge (charAt_nd _ _) fun _ _ => Out.bind_ne_diverge (substr_nd _ _ _) fun _ _ => ?_
    refine Out.bind_ne_diverge (substr_nd _ _ _) fun _ _ => ?_
    split_ifs
    · simp
    refine Out.bind_ne_diverge (charAt_nd _ _) fun _ _ => Out.bind_ne_diverge (charAt_nd _ _) fun _ _ => ?_
    refine Out.bind_ne_diverge (substr_nd _ _ _) fun _ _ => ?_
    simp only
    split_ifs
    · exact Out.bind_ne_diverge (readMPIs_nd _ _ _) fun _ _ => by simp
    · exact Out.bind_ne_diverge (readMPIs_nd _ _ _) fun _ _ => by simp
    · simp
  · unfold Tag2.readV4
    refine Out.bind_ne_diverge (charAt_nd _ _) fun _ _ => Out.bind_ne_diverge (charAt_nd _ _) fun _ _ => ?_
    refine Out.bind_ne_diverge (charAt_nd _ _) fun _ _ => Out.bind_ne_diverge (substr_nd _ _ _) fun _ _ => ?_
    refine Out.bind_ne_diverge (substr_nd _ _ _) fun _ h => Out.bind_ne_diverge (hsub _ _ _ h) fun _ _ => ?_
    refine Out.bind_ne_diverge (substr_nd _ _ _) fun _ _ => ?_
    refine Out.bind_ne_diverge (substr_nd _ _ _) fun _ h => Out.bind_ne_diverge (hsub _ _ _ h) fun _ _ => ?_
    refine Out.bind_ne_diverge (substr_nd _ _ _) fun _ _ => ?_
    exact Out.bind_ne_diverge (readMPIs_nd _ _ _) fun _ _ => by simp
  · simp

theorem readSigAt_nd (n : Nat) (data : Bytes) (h : data.length < n) : readSigAt n data ≠ .diverge := by
  induction n generalizing data with
  | zero => omega
  | succ n ih =>
    exact Tag2.readAt_nd _ _ fun d hd => ih d (by simp only at hd; omega)

theorem Body.parse_nd {E : Type} (readE : Bytes → Out E) (t : Nat) (s : Span)
    (hE : t = 2 → ∀ d : Bytes, d.length < s.src.length → readE d ≠ .diverge) : Body.parse readE t s ≠ .diverge := by
  unfold Body.parse
  split
  · exact Out.map_ne_diverge (Tag1.readAt_nd _)
  · exact Out.map_ne_diverge (Tag2.readAt_nd _ _ (hE rfl))
  · exact Out.map_ne_diverge (Tag3.readAt_nd _)
  · exact Out.map_ne_diverge (tagRead_nd _ _ _ _ fun _ _ => Tag4.actualRead_nd _ _ _)
  · exact Out.map_ne_diverge (Tag5.readAt_nd _)
  · exact Out.map_ne_diverge (KeyPkt.readAt_nd _ _)
  · exact Out.map_ne_diverge (Tag5.readAt_nd _)
  · exact Out.map_ne_diverge (tagRead_nd _ _ _ _ fun _ _ => readOctetString_nd _ _ _)
  · exact Out.map_ne_diverge (tagRead_nd _ _ _ _ fun _ _ => readString_nd _ _ _)
  · exact Out.map_ne_diverge (tagRead_nd _ _ _ _ fun _ _ => readString_nd _ _ _)
  · exact Out.map_ne_diverge (tagRead_nd _ _ _ _ fun _ _ => Tag11.actualRead_nd _ _ _)
  · exact Out.map_ne_diverge (tagRead_nd _ _ _ _ fun _ _ => readString_nd _ _ _)
  · exact Out.map_ne_diverge (tagRead_nd _ _ _ _ fun _ _ => readString_nd _ _ _)
  · exact Out.map_ne_diverge (KeyPkt.readAt_nd _ _)
  · exact Out.map_ne_diverge (tagRead_nd _ _ _ _ fun _ _ => Attr.readList_nd _ _ _)
  · exact Out.map_ne_diverge (tagRead_nd _ _ _ _ fun _ _ => readOctetString_nd _ _ _)
  · exact Out.map_ne_diverge (tagRead_nd _ _ _ _ fun _ _ => readString_nd _ _ _)
  · exact Out.map_ne_diverge (tagRead_nd _ _ _ _ fun _ _ => readString_nd _ _ _)
  · exact Out.map_ne_diverge (tagRead_nd _ _ _ _ fun _ _ => readString_nd _ _ _)
  · exact Out.map_ne_diverge (tagRead_nd _ _ _ _ fun _ _ => readString_nd _ _ _)
  · exact Out.map_ne_diverge (tagRead_nd _ _ _ _ fun _ _ => readString_nd _ _ _)
  · simp

end OpenPGP
