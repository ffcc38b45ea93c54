import Verif.Lemmas.Framing

/-!
# C06: a packet sequence survives write and read

`C06_sequence_partial` is stated for every packet-specific reader, so it covers the concrete packets;
`C06_opaque_partial` is its instance for packets seen as (format, tag, body) triples.
Missing from the full property: body lengths the reader mishandles (see C05).
-/
namespace OpenPGP

/-- A packet seen as its format, tag and body. -/
structure RawPacket where
  fmt : Fmt
  tag : Nat
  body : Bytes
  deriving DecidableEq, Repr

/-- `PGP::raw()` (PGP.cpp:501-511) without a status argument: the packets' written forms one after the other. -/
def writeRaw {α : Type} (write : α → Out Bytes) : List α → Out Bytes
  | [] => .ok []
  | p :: ps => do
    let a ← write p
    let r ← writeRaw write ps
    return a ++ r

/-- Reader taking the body octets as they are. -/
def opaqueBody (tag : Nat) (fmt : Fmt) (span : Span) : Out RawPacket := do
  let b ← substr span.src span.start span.length
  return ⟨fmt, tag, b⟩

/-- A packet the reader can find again (lengths outside the defective ranges of C05, known tag). -/
def readable (fmt : Fmt) (tag : Nat) (body : Bytes) : Prop :=
  validTag fmt tag ∧ knownTag tag = true ∧ readableLen fmt body.length

theorem readPacket_at {α : Type} (parse : Nat → Fmt → Span → Out α) {data : Bytes} {pos : Nat} {fmt : Fmt}
    {tag : Nat} {body rest : Bytes} {p : α} (hd : data.drop pos = packetOctets fmt tag body ++ rest)
    (hr : readable fmt tag body)
    (hp : ∀ (data : Bytes) (start : Nat), data.drop start = body ++ rest → start ≤ data.length →
      parse tag fmt ⟨data, start, body.length, false⟩ = .ok p) :
    readPacket parse data pos = .ok (p, pos + (packetOctets fmt tag body).length) := by
  obtain ⟨ctb, start, h1, h2, _, h4, h5, _⟩ := frame_at hd hr.1 hr.2.2
  simp only [readPacket, h1, Out.ok_bind, h2, Bool.false_and, Bool.false_eq_true, if_false, hr.2.1, Bool.not_true]
  rw [hp data start h4 h5]
  rfl

theorem readRawLoop_at {α : Type} (parse : Nat → Fmt → Span → Out α) (fmt : α → Fmt) (tag : α → Nat)
    (body : α → Bytes) (ps : List α) (data : Bytes) (pos fuel : Nat)
    (hd : data.drop pos = ps.flatMap fun p => packetOctets (fmt p) (tag p) (body p))
    (hr : ∀ p ∈ ps, readable (fmt p) (tag p) (body p))
    (hp : ∀ p ∈ ps, ∀ (data : Bytes) (start : Nat) (rest : Bytes), data.drop start = body p ++ rest →
      start ≤ data.length → parse (tag p) (fmt p) ⟨data, start, (body p).length, false⟩ = .ok p)
    (hf : ps.length < fuel) :
    readRawLoop parse data fuel pos = .ok ps := by
  induction ps generalizing pos fuel with
  | nil =>
    cases fuel with
    | zero => simp at hf
    | succ fuel =>
      simp only [List.flatMap_nil, List.drop_eq_nil_iff] at hd
      simp [readRawLoop, show ¬ pos < data.length by omega]
  | cons p ps ih =>
    cases fuel with
    | zero => simp at hf
    | succ fuel =>
      rw [List.flatMap_cons] at hd
      have hlt : pos < data.length := by
        by_contra hc
        rw [List.drop_eq_nil_of_le (by omega)] at hd
        exact packetOctets_ne_nil _ _ _ (List.append_eq_nil_iff.mp hd.symm).1
      have h1 := readPacket_at parse hd (hr p (by simp))
        (fun data start h hl => hp p (by simp) data start _ h hl)
      have h2 := ih (pos + (packetOctets (fmt p) (tag p) (body p)).length) fuel (drop_add_of hd)
        (fun q hq => hr q (by simp [hq])) (fun q hq => hp q (by simp [hq])) (by simpa using hf)
      simp [readRawLoop, hlt, h1, h2]

theorem writeRaw_eq {α : Type} (write : α → Out Bytes) (fmt : α → Fmt) (tag : α → Nat) (body : α → Bytes)
    (ps : List α) (hr : ∀ p ∈ ps, write p = .ok (packetOctets (fmt p) (tag p) (body p))) :
    writeRaw write ps = .ok (ps.flatMap fun p => packetOctets (fmt p) (tag p) (body p)) := by
  induction ps with
  | nil => rfl
  | cons p ps ih =>
    rw [writeRaw, hr p (by simp), ih (fun q hq => hr q (by simp [hq]))]
    simp

theorem flatMap_length_ge {α : Type} (f : α → Bytes) (ps : List α) (h : ∀ p ∈ ps, f p ≠ []) :
    ps.length ≤ (ps.flatMap f).length := by
  induction ps with
  | nil => simp
  | cons p ps ih =>
    have h1 := ih (fun q hq => h q (by simp [hq]))
    have h2 : 0 < (f p).length := List.length_pos_iff.mpr (h p (by simp))
    simp only [List.flatMap_cons, List.length_append, List.length_cons]
    omega

/-- For every kind of packet `α` with a writer `body` and a reader `parse` that inverts it in every surrounding:
a written list of packets is read back as the same list, in order. -/
theorem C06_sequence_partial {α : Type} (parse : Nat → Fmt → Span → Out α) (fmt : α → Fmt) (tag : α → Nat)
    (body : α → Bytes) (ps : List α) (out : Bytes)
    (hr : ∀ p ∈ ps, readable (fmt p) (tag p) (body p))
    (hp : ∀ p ∈ ps, ∀ (data : Bytes) (start : Nat) (rest : Bytes), data.drop start = body p ++ rest →
      start ≤ data.length → parse (tag p) (fmt p) ⟨data, start, (body p).length, false⟩ = .ok p)
    (hw : writeRaw (fun p => writePacket (fmt p) (tag p) false (body p)) ps = .ok out) :
    readRaw parse out = .ok ps := by
  have he := writeRaw_eq (fun p => writePacket (fmt p) (tag p) false (body p)) fmt tag body ps
    (fun p hp => writePacket_eq _ _ _ (hr p hp).1)
  rw [he] at hw
  cases hw
  apply readRawLoop_at parse fmt tag body ps _ 0 _ (by rfl) hr hp
  have := flatMap_length_ge (fun p => packetOctets (fmt p) (tag p) (body p)) ps
    (fun p _ => packetOctets_ne_nil _ _ _)
  omega

/-- The same for packets as (format, tag, body) triples: none lost, merged or invented. -/
theorem C06_opaque_partial (ps : List RawPacket) (out : Bytes)
    (hr : ∀ p ∈ ps, readable p.fmt p.tag p.body)
    (hw : writeRaw (fun p : RawPacket => writePacket p.fmt p.tag false p.body) ps = .ok out) :
    readRaw opaqueBody out = .ok ps := by
  refine C06_sequence_partial opaqueBody RawPacket.fmt RawPacket.tag RawPacket.body ps out hr ?_ hw
  intro p _ data start rest hd hl
  simp [opaqueBody, substr_drop hl hd rfl]

/-- Concrete: two packets, one old-format, one new-format with a two-octet length. -/
example : ∀ p ∈ [(⟨.old, 6, [1, 2, 3]⟩ : RawPacket), ⟨.new, 11, List.replicate 300 9⟩],
    readable p.fmt p.tag p.body := by
  intro p hp
  simp only [List.mem_cons, List.not_mem_nil, or_false] at hp
  rcases hp with rfl | rfl
  · exact ⟨by simp [validTag], by decide, by simp [readableLen]⟩
  · exact ⟨by simp [validTag], by decide, by show (List.replicate 300 9).length < 2 ^ 32 ∧ _; rw [List.length_replicate]; omega⟩

/-- No list of packets whose first one is a new-format packet with a body of 8128..8383 octets can be read back,
whatever the packet-specific reader does. -/
theorem C06_sequence_fails {α : Type} (parse : Nat → Fmt → Span → Out α) (tag : Nat) (body rest : Bytes)
    (ht : tag < 64) (hlo : 8128 ≤ body.length) (hhi : body.length ≤ 8383) (enc : Bytes)
    (hw : writePacket .new tag false body = .ok enc) (qs : List α) :
    readRaw parse (enc ++ rest) ≠ .ok qs := by
  have hl : newLengthOctets body.length 0 = [223, UInt8.ofNat (body.length - 192)] := by
    unfold newLengthOctets
    have h0 : newOctets body.length 0 = 0 := rfl
    simp only [h0, true_and, Nat.zero_ne_one, false_or, show ¬ (0 : Nat) = 2 by omega]
    rw [if_neg (by omega), if_pos (by omega)]
    have : subSz body.length 0xc0 = body.length - 192 := by unfold subSz; rw [if_pos (by omega)]
    rw [this, show (body.length - 192) / 256 + 0xc0 = 223 by omega]
    rfl
  rw [writePacket_eq .new tag body ht] at hw
  cases hw
  simp only [packetOctets, writeNewDefinite, hl]
  set data : Bytes := UInt8.ofNat (0xc0 ||| tag) :: ([223, UInt8.ofNat (body.length - 192)] ++ body) ++ rest with hdata
  have d0 : data.drop 0 = UInt8.ofNat (0xc0 ||| tag) :: (223 :: (UInt8.ofNat (body.length - 192) :: (body ++ rest))) := rfl
  have d1 : data.drop 1 = 223 :: (UInt8.ofNat (body.length - 192) :: (body ++ rest)) := rfl
  have hlen : data.length = body.length + rest.length + 3 := by
    have := congrArg List.length d0
    simp only [List.drop_zero, List.length_cons, List.length_append] at this
    omega
  have p1 : ∀ r, readPacket parse data 1 ≠ .ok r := by
    intro r
    have hh : readPacketHeader data 1 = .ok (223, .new, 31, 2) := newCtb 31 (by omega) data 1 _ d1
    simp only [readPacket, hh, Out.ok_bind]
    rcases hu : readUnformatted .new 223 data 2 with ⟨s, q⟩ | _ | _ | _ <;> simp [knownTag, canHavePartial]
  intro h
  rw [readRaw, readRawLoop, if_pos (by omega)] at h
  have hh := newCtb tag ht data 0 _ d0
  have hu : readUnformatted .new (UInt8.ofNat (0xc0 ||| tag)) data 1 = .ok (⟨data, 0, 0, false⟩, 1) := by
    simp only [readUnformatted, charAt_drop d1, Out.ok_bind]
    rfl
  obtain ⟨⟨a, q⟩, ha, h⟩ := Out.bind_eq_ok.mp h
  have hq : q = 1 := by
    simp only [readPacket, hh, Out.ok_bind, Nat.zero_add, hu] at ha
    split at ha
    · simp at ha
    · split at ha
      · simp at ha
      · obtain ⟨b, _, hb⟩ := Out.bind_eq_ok.mp ha
        simp at hb; omega
  subst hq
  obtain ⟨ps, hps, _⟩ := Out.bind_eq_ok.mp h
  rw [show data.length = (data.length - 1) + 1 by omega, readRawLoop, if_pos (by omega)] at hps
  obtain ⟨r, hr, _⟩ := Out.bind_eq_ok.mp hps
  exact p1 r hr

end OpenPGP
