import Verif.Lemmas.Progress
import Verif.Model.Key
import Verif.Props.C29

/-!
# C48: parsing terminates and makes progress

An endless loop (or unbounded recursion) is the outcome `.diverge` of the model.  The loops of the model carry an
iteration bound; reaching it would be `.diverge`, so these theorems also say that the bounds are never reached: the
model's loops are the program's.
-/
namespace OpenPGP

/-- Every packet read consumes input, whatever the reader of the packet bodies does. -/
theorem C48_packet_progress {α : Type} (body : Nat → Fmt → Span → Out α) (data : Bytes) (pos pos' : Nat) (a : α)
    (h : readPacket body data pos = .ok (a, pos')) : pos < pos' := readPacket_progress h

/-- Reading octets as packets ends, on every input.  Signatures may contain signatures (subpacket 32): no nesting deeper
than the input is long is reached. -/
theorem C48_packets (data : Bytes) (n : Nat) (hn : data.length ≤ n) :
    readRaw (Pkt.parse (readSigAt n)) data ≠ .diverge := by
  apply readRaw_nd
  intro t f s hs
  refine Out.bind_ne_diverge (Body.parse_nd _ _ _ ?_) fun _ _ => by simp
  rintro rfl d hd
  rw [hs rfl] at hd
  exact readSigAt_nd _ _ (by omega)

/-- Reading octets as a signature packet's contents. -/
theorem C48_signature (data : Bytes) (n : Nat) (hn : data.length < n) : readSigAt n data ≠ .diverge :=
  readSigAt_nd n data hn

/-- Reading an area of subpackets. -/
theorem C48_subpackets (area : Bytes) (n : Nat) (hn : area.length ≤ n) : readSubpackets (readSigAt n) area ≠ .diverge :=
  readSubpackets_nd _ _ fun d hd => readSigAt_nd _ _ (by omega)

/-- Reading the integers of an unprotected or decrypted secret key. -/
theorem C48_secret_values (data : Bytes) : readAllMPIs data (data.length + 1) 0 ≠ .diverge :=
  readAllMPIs_nd _ _ _ (by omega) (by omega)

theorem stripPad_nd (l : Bytes) (n : Nat) : stripPad l n ≠ .diverge := by
  induction l generalizing n with
  | nil => simp [stripPad]
  | cons c l ih =>
    unfold stripPad
    split_ifs
    · exact ih _
    · simp

theorem radixBitsAll_nd (c62 c63 : UInt8) (l : Bytes) : radixBitsAll c62 c63 l ≠ .diverge := by
  induction l with
  | nil => simp [radixBitsAll]
  | cons c l ih =>
    unfold radixBitsAll
    refine Out.bind_ne_diverge ?_ fun _ _ => Out.bind_ne_diverge ih fun _ _ => by simp
    unfold radixBits
    split_ifs <;> simp

theorem radix642ascii_nd (s : Bytes) (c62 c63 : UInt8) : radix642ascii s c62 c63 ≠ .diverge := by
  unfold radix642ascii
  split_ifs
  · simp
  · exact Out.bind_ne_diverge (stripPad_nd _ _) fun _ _ => Out.bind_ne_diverge (radixBitsAll_nd _ _ _) fun _ _ => by simp

theorem armorDecode_nd (b c : Bytes) : armorDecode b c ≠ .diverge := by
  unfold armorDecode
  split_ifs
  · exact Out.bind_ne_diverge (radix642ascii_nd _ _ _) fun _ _ => radix642ascii_nd _ _ _
  · exact radix642ascii_nd _ _ _

/-- Reading a text or octets, armored or not, into any object. -/
theorem C48_read (data : Bytes) :
    ∃ N, ∀ n, N ≤ n → ∀ o, pgpRead (Pkt.parse (readSigAt n)) o data ≠ .diverge := by
  simp only [pgpRead]
  cases findBegin (getlines data) with
  | none =>
    exact ⟨data.length, fun n hn o => Out.bind_ne_diverge (C48_packets data n hn) fun _ _ => by simp⟩
  | some p =>
    simp only
    split_ifs with ht
    · exact ⟨0, fun _ _ _ => by simp⟩
    · have hd := armorDecode_nd (armorBody [] [] (armorKeys p.2).2).1 (armorBody [] [] (armorKeys p.2).2).2
      cases h : armorDecode (armorBody [] [] (armorKeys p.2).2).1 (armorBody [] [] (armorKeys p.2).2).2 with
      | ok d =>
        exact ⟨d.length, fun n hn o => by
          rw [Out.ok_bind]
          exact Out.bind_ne_diverge (C48_packets d n hn) fun _ _ => by simp⟩
      | throw => exact ⟨0, fun _ _ _ => by simp⟩
      | ub => exact ⟨0, fun _ _ _ => by simp⟩
      | diverge => exact absurd h hd

/-- Reading a text as a cleartext signed message. -/
theorem C48_cleartext (data : Bytes) :
    ∃ N, ∀ n, N ≤ n → ∀ o, cleartextRead (Pkt.parse (readSigAt n)) o data ≠ .diverge := by
  simp only [cleartextRead]
  cases findSigned (getlines data) with
  | none => exact ⟨0, fun _ _ _ => by simp⟩
  | some p =>
    obtain ⟨line, ls⟩ := p
    simp only
    obtain ⟨N, hN⟩ := C48_read ((linesUntil (atEnd data) endSignature
      ((linesUntil (atEnd data) beginSignature [] (hashHeaders (atEnd data) line ls).2.1
        (hashHeaders (atEnd data) line ls).2.2).2.1 ++ [10])
      (linesUntil (atEnd data) beginSignature [] (hashHeaders (atEnd data) line ls).2.1
        (hashHeaders (atEnd data) line ls).2.2).2.1
      (linesUntil (atEnd data) beginSignature [] (hashHeaders (atEnd data) line ls).2.1
        (hashHeaders (atEnd data) line ls).2.2).2.2).1 ++
      (linesUntil (atEnd data) endSignature
      ((linesUntil (atEnd data) beginSignature [] (hashHeaders (atEnd data) line ls).2.1
        (hashHeaders (atEnd data) line ls).2.2).2.1 ++ [10])
      (linesUntil (atEnd data) beginSignature [] (hashHeaders (atEnd data) line ls).2.1
        (hashHeaders (atEnd data) line ls).2.2).2.1
      (linesUntil (atEnd data) beginSignature [] (hashHeaders (atEnd data) line ls).2.1
        (hashHeaders (atEnd data) line ls).2.2).2.2).2.1)
    exact ⟨N, fun n hn o => Out.bind_ne_diverge (hN n hn _) fun _ _ => by simp⟩

variable {E : Type}

theorem skipCertifications_length (isId : Bool) (l r : List (Body E))
    (h : KeyObj.skipCertifications isId l = some r) : r.length ≤ l.length := by
  induction l with
  | nil => simp only [KeyObj.skipCertifications, Option.some.injEq] at h; subst h; simp
  | cons b l ih =>
    cases b <;> simp only [KeyObj.skipCertifications, Option.some.injEq] at h
    case sig s =>
      split_ifs at h
      have := ih h
      simp only [List.length_cons]
      omega
    all_goals subst h; simp

theorem skipSubkeySigs_length (b : Bool) (l : List (Body E)) : (KeyObj.skipSubkeySigs b l).2.length ≤ l.length := by
  induction l generalizing b with
  | nil => simp [KeyObj.skipSubkeySigs]
  | cons x l ih =>
    cases x <;> simp only [KeyObj.skipSubkeySigs, le_refl, List.length_cons]
    case sig s => have := ih (b || s.type == 0x18); omega

theorem userLoop_nd (fuel : Nat) (seen : Bool) (l : List (Body E)) (h : l.length < fuel) :
    KeyObj.userLoop fuel seen l ≠ .diverge := by
  induction fuel generalizing seen l with
  | zero => omega
  | succ n ih =>
    unfold KeyObj.userLoop
    split
    · simp
    · rename_i b r
      split_ifs
      · simp
      · split
        · simp
        · simp
        · rename_i hs
          split_ifs
          · have := skipCertifications_length _ _ _ hs
            simp only [List.length_cons] at h this
            exact ih _ _ (by simp only [List.length_cons]; omega)
          · simp

theorem subkeyLoop_nd (subkey : Nat) (v : UInt8) (fuel : Nat) (l : List (Body E)) (h : l.length < fuel) :
    KeyObj.subkeyLoop subkey v fuel l ≠ .diverge := by
  induction fuel generalizing l with
  | zero => omega
  | succ n ih =>
    unfold KeyObj.subkeyLoop
    split
    · simp
    · rename_i b r
      split_ifs
      · simp
      · simp
      · split
        · simp
        · rename_i r' hs
          have := skipSubkeySigs_length false r
          rw [hs] at this
          simp only [List.length_cons] at h this
          exact ih _ (by omega)

/-- The check of a key's structure ends for every sequence of packets. -/
theorem C48_key_structure (kind : KeyKind) (l : List (Body E)) : KeyObj.meaningfulBodies kind l ≠ .diverge := by
  unfold KeyObj.meaningfulBodies
  split
  · simp
  · split_ifs
    · simp
    · split
      · simp
      · split_ifs
        · simp
        · split
          · simp
          · split
            · simp
            · refine Out.bind_ne_diverge (userLoop_nd _ _ _ (by omega)) fun x _ => ?_
              split
              · simp
              · split_ifs
                · simp
                · exact subkeyLoop_nd _ _ _ _ (by omega)

/-- The check of a message's structure ends for every sequence of packets. -/
theorem C48_message_structure (tags : List Nat) : messageMeaningful tags ≠ .diverge := by
  intro h
  rcases C29_terminates tags .openMessage with ⟨b, hb⟩ | hb
  · rw [messageMeaningful, hb] at h; cases h
  · rw [messageMeaningful, hb] at h; cases h

/-- Reading octets as a message: one call of `Message::read_raw` ends, unless it is one that unpacks a compressed
packet and reads what was in it.  Missing from the full property: a bound on the nesting of compressed packets, which
the library does not have (`C48_nested_compression_diverges`). -/
theorem C48_message_partial (z : Zip) (hz : ∀ a d, z.inflate a d ≠ .diverge) (data : Bytes) (n : Nat)
    (hn : data.length ≤ n) (depth : Nat) (comp : Option (Fmt × Bool × UInt8))
    (h : Msg.readLoop z (readSigAt n) (depth + 1) comp data = .diverge) :
    ∃ fmt part alg d inner, readRaw (Pkt.parse (readSigAt n)) data = .ok [⟨fmt, part, .compressed alg d⟩] ∧
      decompress z alg d = .ok inner ∧ Msg.readLoop z (readSigAt n) depth (some (fmt, part, alg)) inner = .diverge := by
  unfold Msg.readLoop at h
  have h1 := C48_packets data n hn
  cases hr : readRaw (Pkt.parse (readSigAt n)) data with
  | throw => rw [hr] at h; cases h
  | ub => rw [hr] at h; cases h
  | diverge => exact absurd hr h1
  | ok ps =>
    rw [hr, Out.ok_bind] at h
    have h2 := C48_message_structure (ps.map (·.body.tag))
    cases hm : messageMeaningful (ps.map (·.body.tag)) with
    | throw => rw [hm] at h; cases h
    | ub => rw [hm] at h; cases h
    | diverge => exact absurd hm h2
    | ok good =>
      rw [hm, Out.ok_bind] at h
      split_ifs at h
      split at h
      · rename_i fmt part alg d
        have h3 : decompress z alg d ≠ .diverge := by
          unfold decompress
          split_ifs
          · exact hz _ _
          · simp
          · simp
        cases hd : decompress z alg d with
        | throw => rw [hd] at h; cases h
        | ub => rw [hd] at h; cases h
        | diverge => exact absurd hd h3
        | ok inner =>
          rw [hd, Out.ok_bind] at h
          exact ⟨fmt, part, alg, d, inner, rfl, hd, h⟩
      · cases h

/-- A compression library for which some compressed packet unpacks to itself (for DEFLATE such data exists). -/
def quineZip : Zip where
  deflate := fun _ src => if src = [0xc8, 2, 1, 0] then .ok [0] else .ok (1 :: src)
  inflate := fun _ c => match c with
    | 1 :: s => .ok s
    | [0] => .ok [0xc8, 2, 1, 0]
    | _ => .throw

theorem quineZip_ok (alg : UInt8) (src : Bytes) : quineZip.Undoes alg src := by
  by_cases h : src = [0xc8, 2, 1, 0]
  · exact ⟨[0], by simp [quineZip, h], by simp, by simp [quineZip, h]⟩
  · exact ⟨1 :: src, by simp [quineZip, h], by simp, rfl⟩

/-- If the contents of a compressed packet unpack to that packet, `Message::read` never ends: no depth of recursion is
enough. -/
theorem C48_nested_compression_diverges (z : Zip) (fmt : Fmt) (part : Bool) (alg : UInt8) (d data : Bytes) (readE : Bytes → Out E)
    (hr : readRaw (Pkt.parse readE) data = .ok [⟨fmt, part, .compressed alg d⟩]) (hd : decompress z alg d = .ok data)
    (depth : Nat) : Msg.readRaw z readE depth data = .diverge := by
  unfold Msg.readRaw
  generalize none = comp
  induction depth generalizing comp with
  | zero => rfl
  | succ n ih =>
    unfold Msg.readLoop
    have hm : messageMeaningful (([⟨fmt, part, .compressed alg d⟩] : List (Pkt E)).map (·.body.tag)) = .ok true :=
      show messageMeaningful [8] = .ok true by decide
    rw [hr, Out.ok_bind, hm, Out.ok_bind]
    simp only [Bool.not_true, Bool.false_eq_true, if_false]
    rw [hd, Out.ok_bind]
    exact ih _

/-- The hypotheses can be met with a correct compression library. -/
example : (∀ alg src, quineZip.Undoes alg src) ∧ ∀ depth, Msg.readRaw quineZip (readSigAt 9) depth [0xc8, 2, 1, 0] = .diverge :=
  ⟨quineZip_ok, C48_nested_compression_diverges quineZip .new false 1 [0] _ _ (by decide +kernel) (by decide +kernel)⟩

/-- A packet and an area that are read, so `C48_packet_progress` and the others speak about something. -/
example : readRaw (Pkt.parse (readSigAt 9)) [0xcd, 2, 65, 66, 0xd3, 1, 7] =
    .ok [⟨.new, false, .userId [65, 66]⟩, ⟨.new, false, .mdc [7]⟩] := by decide +kernel

end OpenPGP
