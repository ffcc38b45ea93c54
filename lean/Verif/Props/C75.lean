import Verif.Model.Setters
import Verif.Model.Commands
import Verif.Spec.Classes
import Verif.Lemmas.Crypt
import Verif.Props.C06Packets
import Verif.Props.C15
import Verif.Lemmas.Printed

/-!
# C75: messages written and read

A message, compressed or not, that is written and read again has the same packets and the same compression, and so has a message that is put into a compressed packet and
taken out of it. The limits are those of C06 (packets whose octets can be read back), C07 (partial bodies) and C54 (compression).
-/
namespace OpenPGP
open Cli Rfc

/-- The packet that holds `data` compressed can be read back: the algorithm exists, decompression undoes it (C54), and the length is one that can be read (C05). -/
def Carries (z : Zip) (fmt : Fmt) (alg : UInt8) (data : Bytes) : Prop :=
  alg ≤ 3 ∧ (alg ≠ 0 → data ≠ [] → z.Undoes alg data) ∧ ∀ d, compress z alg data = .ok d → readableLen fmt (1 + d.length)

/-- A message of RFC 4880, 11.3, whose packets can be read back, and which is not itself a compressed packet. -/
structure PlainMsg (n : Nat) (m : Msg (SigAt n)) : Prop where
  placed : placed n 0 m.packets
  grammar : Rfc.Derives .message (m.packets.map (·.body.tag))
  open_ : ¬ Rfc.Packed m.packets

theorem carries_read (n : Nat) {z : Zip} {fmt : Fmt} {alg : UInt8} {data : Bytes} (h : Carries z fmt alg data) :
    ∃ c, compress z alg data = .ok c ∧ decompress z alg c = .ok data ∧ Pkt.write (rawAt n) ⟨fmt, false, .compressed alg c⟩ = .ok (packetOctets fmt 8 (alg :: c)) ∧
      readRaw (Pkt.parse (readSigAt n)) (packetOctets fmt 8 (alg :: c)) = .ok [⟨fmt, false, .compressed alg c⟩] := by
  obtain ⟨h1, h2, h3⟩ := h
  obtain ⟨c, hc, hd⟩ := decompress_compress h1 data h2
  have ht : validTag fmt 8 := by cases fmt <;> simp [validTag]
  refine ⟨c, hc, hd, write_eq (rawAt n) fmt (.compressed alg c) rfl ht, ?_⟩
  exact readRaw_single (readSigAt n) (rawAt n) fmt (.compressed alg c) trivial rfl ⟨ht, rfl, by rw [List.length_cons, Nat.add_comm]; exact h3 c hc⟩

theorem readLoop_layer {E : Type} {z : Zip} {readE : Bytes → Out E} {fmt : Fmt} {part : Bool} {alg : UInt8} {p c x : Bytes} (depth : Nat) (comp : Option (Fmt × Bool × UInt8))
    (h1 : readRaw (Pkt.parse readE) p = .ok [⟨fmt, part, .compressed alg c⟩]) (h2 : decompress z alg c = .ok x) :
    Msg.readLoop z readE (depth + 1) comp p = Msg.readLoop z readE depth (some (fmt, part, alg)) x := by
  have h8 : messageMeaningful [8] = .ok true := by decide
  rw [Msg.readLoop, h1, Out.ok_bind]
  simp only [List.map_cons, List.map_nil, Body.tag, h8, Out.ok_bind, Bool.not_true, Bool.false_eq_true, if_false, h2]

theorem readLoop_plain {n : Nat} {z : Zip} {m : Msg (SigAt n)} (h : PlainMsg n m) {out : Bytes} (ho : readRaw (Pkt.parse (readSigAt n)) out = .ok m.packets) (depth : Nat)
    (comp : Option (Fmt × Bool × UInt8)) : Msg.readLoop z (readSigAt n) (depth + 1) comp out = .ok ⟨comp, m.packets⟩ := by
  rw [Msg.readLoop, ho, Out.ok_bind, meaningful_of h.grammar, Out.ok_bind]
  simp only [Bool.not_true, Bool.false_eq_true, if_false]
  split
  · rename_i fmt part alg d hp
    exact absurd ⟨fmt, part, alg, d, hp⟩ h.open_
  · rfl

/-- **Without armor**: the octets of a message, read again, are the message. -/
theorem C75_raw (n : Nat) (z : Zip) (m : Msg (SigAt n)) (h : PlainMsg n m)
    (hc : ∀ fmt part alg out, m.comp = some (fmt, part, alg) → writeRaw (Pkt.write (rawAt n)) m.packets = .ok out → part = false ∧ Carries z fmt alg out) :
    ∃ out, m.raw z (rawAt n) = .ok out ∧ ∀ depth, Msg.readRaw z (readSigAt n) (depth + 2) out = .ok m := by
  obtain ⟨out, hw, hr⟩ := C06_packets_partial n _ h.placed
  obtain ⟨comp, ps⟩ := m
  cases comp with
  | none =>
    refine ⟨out, by rw [Msg.raw, hw, Out.ok_bind]; rfl, fun depth => ?_⟩
    exact readLoop_plain h hr (depth + 1) none
  | some x =>
    obtain ⟨fmt, part, alg⟩ := x
    obtain ⟨rfl, hcar⟩ := hc fmt part alg out rfl hw
    obtain ⟨c, h1, h2, h3, h4⟩ := carries_read n hcar
    refine ⟨_, by rw [Msg.raw, hw, Out.ok_bind]; dsimp only; rw [h1, Out.ok_bind, h3], fun depth => ?_⟩
    rw [Msg.readRaw, readLoop_layer (depth + 1) none h4 h2]
    exact readLoop_plain h hr depth _

/-- The octets a message is written as, in front of the armor. -/
theorem written (n : Nat) (z : Zip) (m : Msg (SigAt n)) (h : PlainMsg n m)
    (hc : ∀ fmt part alg out, m.comp = some (fmt, part, alg) → writeRaw (Pkt.write (rawAt n)) m.packets = .ok out → part = false ∧ Carries z fmt alg out)
    (hc2 : ∀ fmt part alg out, m.comp = some (fmt, part, alg) → m.raw z (rawAt n) = .ok out → Carries z fmt alg out) (keys : List (Bytes × Bytes)) :
    ∃ d ps, d ≠ [] ∧ readRaw (Pkt.parse (readSigAt n)) d = .ok ps ∧ (∀ mode, writeMsg z (rawAt n) keys m mode = pgpWrite ⟨true, 1, keys, ([] : List (Pkt (SigAt n)))⟩ mode d) ∧
      messageMeaningful (ps.map (·.body.tag)) = .ok true ∧
      ((m.comp = none ∧ ps = m.packets) ∨ ∃ fmt part alg c x, ps = [⟨fmt, part, .compressed alg c⟩] ∧ decompress z alg c = .ok x ∧
        ∀ depth, Msg.readLoop z (readSigAt n) (depth + 2) (some (fmt, part, alg)) x = .ok m) := by
  obtain ⟨out, hw, hr⟩ := C06_packets_partial n _ h.placed
  obtain ⟨comp, ps⟩ := m
  cases comp with
  | none =>
    refine ⟨out, ps, ?_, hr, fun mode => ?_, meaningful_of h.grammar, Or.inl ⟨rfl, rfl⟩⟩
    · rintro rfl
      have : ps = [] := by
        have : readRaw (Pkt.parse (readSigAt n)) [] = .ok [] := rfl
        rw [this] at hr
        exact (Out.ok.inj hr).symm
      subst this
      have hg := meaningful_of h.grammar
      exact absurd (show messageMeaningful [] = .ok true from hg) (by decide)
    · rw [writeMsg, Msg.raw, hw]
      rfl
  | some x =>
    obtain ⟨fmt, part, alg⟩ := x
    obtain ⟨rfl, hcar⟩ := hc fmt part alg out rfl hw
    obtain ⟨c, h1, h2, h3, h4⟩ := carries_read n hcar
    have hraw : Msg.raw z (rawAt n) ⟨some (fmt, false, alg), ps⟩ = .ok (packetOctets fmt 8 (alg :: c)) := by
      rw [Msg.raw, hw, Out.ok_bind]; dsimp only; rw [h1, Out.ok_bind, h3]
    obtain ⟨c', g1, g2, g3, g4⟩ := carries_read n (hc2 fmt false alg _ rfl hraw)
    refine ⟨_, _, ?_, g4, fun mode => ?_, (by decide : messageMeaningful [8] = .ok true), Or.inr ⟨fmt, false, alg, c', _, rfl, g2, fun depth => ?_⟩⟩
    · intro he
      rw [he] at g4
      have : readRaw (Pkt.parse (readSigAt n)) [] = .ok [] := rfl
      rw [this] at g4
      exact absurd (Out.ok.inj g4) (by simp)
    · rw [writeMsg, hraw, Out.ok_bind]
      dsimp only
      rw [g1, Out.ok_bind, g3, Out.ok_bind]
    · rw [readLoop_layer (depth + 1) _ h4 h2]
      exact readLoop_plain h hr depth _

/-- Armor with or without a line feed behind it. -/
theorem armored_octets {α : Type} (parse : Nat → Fmt → Span → Out α) (o : PgpObj α) (octets : Bytes) (h1 : 1 ≤ o.type) (h6 : o.type ≤ 6) (hh : ∀ h ∈ o.keys, goodHeader h)
    (ho : octets ≠ []) (hr : readRaw parse octets = .ok o.packets) :
    ∃ t, pgpWrite o .yes octets = .ok t ∧ ∀ e, e = [] ∨ e = [10] → pgpRead parse .fresh (t ++ e) = .ok { o with armored := true } := by
  obtain ⟨out, body, h2, h3, h4, h5, h7⟩ := C15_written o .yes octets h1 h6 hh (Or.inl rfl)
  refine ⟨out, h2, fun e he => ?_⟩
  have hlines : ∃ after, (getlines (out ++ e)).map rtrim = [] ++ armorLines o.type o.keys body (ascii2radix64 (be 3 (crc24 octets).toNat)) ++ after := by
    rcases he with rfl | rfl
    · exact ⟨[], by rw [List.append_nil, h4, h3]; simp⟩
    rcases getlines_lf out with h | h
    · exact ⟨[], by rw [h, h4, h3]; simp⟩
    · exact ⟨[[]], by rw [h, List.map_append, h4, h3]; simp [rtrim, trimWhitespace]⟩
  obtain ⟨after, hlines⟩ := hlines
  have hc : radix642ascii (ascii2radix64 (be 3 (crc24 octets).toNat)) = .ok (be 3 (crc24 octets).toNat) := by
    exact C02_radix64_roundtrip_default _ (by intro h; have := congrArg List.length h; simp at this)
  rw [C15_read parse .fresh (out ++ e) [] after body o.type o.keys octets _ _ h1 h6 hlines (by simp) hh h5 (fun l hl => (h7 l hl).1) ho hc, hr]
  rfl

/-- **Armored**: the text of a message, with or without a line feed behind it, read into a new one, is the message. -/
theorem C75_armored (n : Nat) (z : Zip) (m : Msg (SigAt n)) (h : PlainMsg n m) (keys : List (Bytes × Bytes)) (hk : ∀ h ∈ keys, goodHeader h)
    (hc : ∀ fmt part alg out, m.comp = some (fmt, part, alg) → writeRaw (Pkt.write (rawAt n)) m.packets = .ok out → part = false ∧ Carries z fmt alg out)
    (hc2 : ∀ fmt part alg out, m.comp = some (fmt, part, alg) → m.raw z (rawAt n) = .ok out → Carries z fmt alg out) :
    ∃ text, writeMsg z (rawAt n) keys m .yes = .ok text ∧ ∀ e depth, e = [] ∨ e = [10] → Msg.ofString z (readSigAt n) (depth + 2) (text ++ e) = .ok m := by
  obtain ⟨d, ps, hd, hr, hw, hg, hcase⟩ := written n z m h hc hc2 keys
  obtain ⟨text, h1, h2⟩ := armored_octets (Pkt.parse (readSigAt n)) ⟨true, 1, keys, ps⟩ d (by simp) (by simp) hk hd hr
  refine ⟨text, (hw .yes).trans h1, fun e depth he => ?_⟩
  rw [Msg.ofString, h2 e he, Out.ok_bind, hg, Out.ok_bind]
  simp only [Bool.not_true, Bool.false_eq_true, if_false]
  rcases hcase with ⟨hn, rfl⟩ | ⟨fmt, part, alg, c, x, rfl, hx, hread⟩
  · split
    · rename_i fmt part alg d hp
      exact absurd ⟨fmt, part, alg, d, hp⟩ h.open_
    · rw [← hn]
  · simp only [hx, Out.ok_bind, hread depth]

/-- **Binary files**: the same, unless a line of the octets looks like armor (C15_binary_confused_fails). -/
theorem C75_binary (n : Nat) (z : Zip) (m : Msg (SigAt n)) (h : PlainMsg n m) (keys : List (Bytes × Bytes))
    (hc : ∀ fmt part alg out, m.comp = some (fmt, part, alg) → writeRaw (Pkt.write (rawAt n)) m.packets = .ok out → part = false ∧ Carries z fmt alg out)
    (hc2 : ∀ fmt part alg out, m.comp = some (fmt, part, alg) → m.raw z (rawAt n) = .ok out → Carries z fmt alg out)
    (hl : ∀ d, writeMsg z (rawAt n) keys m .no = .ok d → ∀ l ∈ getlines d, ¬ ascii "-----BEGIN PGP " <+: rtrim l) :
    ∃ d, writeMsg z (rawAt n) keys m .no = .ok d ∧ ∀ depth, Msg.ofString z (readSigAt n) (depth + 2) d = .ok m := by
  obtain ⟨d, ps, hd, hr, hw, hg, hcase⟩ := written n z m h hc hc2 keys
  have hw := hw .no
  rw [pgpWrite, if_pos (Or.inl rfl)] at hw
  obtain ⟨-, h2⟩ := C15_binary (Pkt.parse (readSigAt n)) ⟨true, 1, keys, ps⟩ d (hl d hw) hr
  refine ⟨d, hw, fun depth => ?_⟩
  rw [Msg.ofString, h2, Out.ok_bind, hg, Out.ok_bind]
  simp only [Bool.not_true, Bool.false_eq_true, if_false]
  rcases hcase with ⟨hn, rfl⟩ | ⟨fmt, part, alg, c, x, rfl, hx, hread⟩
  · split
    · rename_i fmt part alg d hp
      exact absurd ⟨fmt, part, alg, d, hp⟩ h.open_
    · rw [← hn]
  · simp only [hx, Out.ok_bind, hread depth]

/-- **A message put into a compressed packet** comes out of it; the algorithm of the packet stays. -/
theorem C75_body (n : Nat) (z : Zip) (m : Msg (SigAt n)) (h : PlainMsg n m) (t : Tag8) (ht : t.comp ≤ 3)
    (hc : ∀ fmt part alg out, m.comp = some (fmt, part, alg) → writeRaw (Pkt.write (rawAt n)) m.packets = .ok out → part = false ∧ Carries z fmt alg out)
    (hz : ∀ out, m.raw z (rawAt n) = .ok out → t.comp ≠ 0 → out ≠ [] → z.Undoes t.comp out) :
    (t.setBody z (rawAt n) m).1 = .ok () ∧ (t.setBody z (rawAt n) m).2.comp = t.comp ∧
      ∀ depth, (t.setBody z (rawAt n) m).2.getBody z (readSigAt n) (depth + 2) = .ok m := by
  obtain ⟨out, h1, h2⟩ := C75_raw n z m h hc
  obtain ⟨c, h3, h4⟩ := decompress_compress ht out (hz out h1)
  have hs : t.setBody z (rawAt n) m = (.ok (), { t with compressed := c }) := by
    simp only [Tag8.setBody, h1, Tag8.setData, h3]
  rw [hs]
  refine ⟨rfl, rfl, fun depth => ?_⟩
  simp only [Tag8.getBody, Tag8.getData, h4, Out.ok_bind, h2 depth]

/-! ## Cases -/

/-- A literal packet in a compressed one (of algorithm 0, so that no compression library is involved). -/
def exampleMsg : Msg (SigAt 0) := ⟨some (.new, false, 0), [⟨.new, false, .literal ⟨0x62, [], 0, ascii "hi"⟩⟩]⟩

theorem exampleMsg_plain : PlainMsg 0 exampleMsg where
  placed := ⟨_, rfl, ⟨by simp [validTag, Body.tag], rfl, by simp [readableLen, Tag11.raw]; decide⟩, rfl, ⟨by simp, by simp⟩, trivial⟩
  grammar := (C29_meaningful_iff _).mp (by decide)
  open_ := by rintro ⟨fmt, part, alg, d, h⟩; simp [exampleMsg] at h

/-- It fulfils the hypotheses of the theorems above, with any compression library: one layer has 13 octets, what is written 16. -/
example (z : Zip) : exampleMsg.raw z (rawAt 0) = .ok [0xc8, 11, 0, 0xcb, 8, 0x62, 0, 0, 0, 0, 0, 0x68, 0x69] ∧
    writeMsg z (rawAt 0) [] exampleMsg .no = .ok [0xc8, 14, 0, 0xc8, 11, 0, 0xcb, 8, 0x62, 0, 0, 0, 0, 0, 0x68, 0x69] := ⟨by rfl, by rfl⟩

example (z : Zip) : ∃ text, writeMsg z (rawAt 0) [] exampleMsg .yes = .ok text ∧ ∀ e depth, e = [] ∨ e = [10] → Msg.ofString z (readSigAt 0) (depth + 2) (text ++ e) = .ok exampleMsg := by
  have hr : exampleMsg.raw z (rawAt 0) = .ok [0xc8, 11, 0, 0xcb, 8, 0x62, 0, 0, 0, 0, 0, 0x68, 0x69] := by rfl
  have hw : writeRaw (Pkt.write (rawAt 0)) exampleMsg.packets = .ok [0xcb, 8, 0x62, 0, 0, 0, 0, 0, 0x68, 0x69] := by rfl
  refine C75_armored 0 z exampleMsg exampleMsg_plain [] (by simp) ?_ ?_
  · rintro fmt part alg out he ho
    obtain rfl := Out.ok.inj (hw.symm.trans ho)
    obtain ⟨rfl, rfl, rfl⟩ : fmt = .new ∧ part = false ∧ alg = 0 := by simpa [exampleMsg, eq_comm] using he
    refine ⟨rfl, by decide, by simp, ?_⟩
    intro d hd
    simp only [compress, if_true] at hd
    obtain rfl := Out.ok.inj hd
    simp [readableLen]
  · rintro fmt part alg out he ho
    obtain rfl := Out.ok.inj (hr.symm.trans ho)
    obtain ⟨rfl, rfl, rfl⟩ : fmt = .new ∧ part = false ∧ alg = 0 := by simpa [exampleMsg, eq_comm] using he
    refine ⟨by decide, by simp, ?_⟩
    intro d hd
    simp only [compress, if_true] at hd
    obtain rfl := Out.ok.inj hd
    simp [readableLen]

/-! ## Failures -/

/-- **Failure: writing compresses twice.** What is written is the message that consists of the compressed packet, compressed once more; `raw` gives one layer. -/
theorem C75_twice_fails {E : Type} (z : Zip) (rawE : E → Bytes) (keys : List (Bytes × Bytes)) (ps : List (Pkt E)) (fmt : Fmt) (part : Bool) (alg : UInt8) (out c d : Bytes)
    (h1 : writeRaw (Pkt.write rawE) ps = .ok out) (h2 : compress z alg out = .ok c) (h3 : Pkt.write rawE ⟨fmt, part, .compressed alg c⟩ = .ok d) :
    Msg.raw z rawE ⟨some (fmt, part, alg), ps⟩ = .ok d ∧
      writeMsg z rawE keys ⟨some (fmt, part, alg), ps⟩ .no = Msg.raw z rawE ⟨some (fmt, part, alg), [⟨fmt, part, .compressed alg c⟩]⟩ := by
  have hr : Msg.raw z rawE ⟨some (fmt, part, alg), ps⟩ = .ok d := by
    rw [Msg.raw, h1, Out.ok_bind]; dsimp only; rw [h2, Out.ok_bind, h3]
  refine ⟨hr, ?_⟩
  have hw : writeRaw (Pkt.write rawE) [⟨fmt, part, .compressed alg c⟩] = .ok d := by
    simp [writeRaw, h3]
  have hno : ∀ x : Bytes, pgpWrite (⟨true, 1, keys, []⟩ : PgpObj (Pkt E)) .no x = .ok x := fun x => if_pos (Or.inl rfl)
  have hm : ∀ x : Out Bytes, (x >>= fun d => pgpWrite (⟨true, 1, keys, []⟩ : PgpObj (Pkt E)) .no d) = x := by
    intro x
    cases x <;> simp [hno]
  rw [writeMsg, hr, Out.ok_bind, hm, Msg.raw, hw, Out.ok_bind]

/-- **Failure: reading into a used message.** The compression of an earlier message stays when the next one has none, so that it is not written as it was read. -/
theorem C75_used_fails (n : Nat) (z : Zip) (m : Msg (SigAt n)) (h : PlainMsg n m) (hn : m.comp = none) (x : Fmt × Bool × UInt8) (depth : Nat) :
    ∃ out, m.raw z (rawAt n) = .ok out ∧ Msg.readLoop z (readSigAt n) (depth + 1) (some x) out = .ok ⟨some x, m.packets⟩ ∧ m.getComp = 0 ∧
      (⟨some x, m.packets⟩ : Msg (SigAt n)).getComp = x.2.2 := by
  obtain ⟨out, hw, hr⟩ := C06_packets_partial n _ h.placed
  obtain ⟨comp, ps⟩ := m
  obtain rfl : comp = none := hn
  exact ⟨out, by rw [Msg.raw, hw, Out.ok_bind]; rfl, readLoop_plain h hr depth (some x), rfl, rfl⟩

end OpenPGP
