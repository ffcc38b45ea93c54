import Verif.Props.C06
import Verif.Props.C10
import Verif.Props.C11
import Verif.Props.C12
import Verif.Props.C13
import Verif.Props.C14

/-!
# C06, continued: sequences of the library's own packet objects

`C06_packets_partial` composes C10 - C14 with the framing: a list of packet objects of any kinds is written and read back
as the same list of objects. Missing from the full property: the body lengths of C05 and the packets of C13 and C14 that
are unreadable at their position.
-/
namespace OpenPGP

/-- Key material that is read back (C11). -/
def KeyPkt.wf (k : KeyPkt) : Prop := k.wfV4 ∨ (k.wfV3 ∧ k.expire / 256 < 128 ∧ k.expire % 256 < 128)

/-- The packets that are read back when their body starts at offset `start` of the input (C10 - C14). -/
def Body.okAt (n start : Nat) : Body (SigAt n) → Prop
  | .pkesk t => ∃ h : t.wf, start < (mpiOctets (t.mpi.getLast h.2.2.1)).length
  | .sig s => wfSig (n + 1) s ∧ s.version = 4
  | .skesk t => t.wf
  | .secretKey t => t.key.wf ∧ t.protectionWf
  | .secretSubkey t => t.key.wf ∧ t.protectionWf
  | .publicKey k => k.wf
  | .publicSubkey k => k.wf
  | .userAttr l => (∀ a ∈ l, a.wf) ∧ ∀ hne : l ≠ [], start < (l.getLast hne).write.length
  | b => b.simpleWf

theorem tag5_readAt_wf {t : Tag5} (hk : t.key.wf) (h : t.protectionWf) {raw data : Bytes} {pos : Nat} {rest : Bytes}
    (hraw : t.raw = .ok raw) (hd : data.drop pos = raw ++ rest) :
    Tag5.readAt ⟨data, pos, raw.length, false⟩ = .ok t := by
  rcases hk with hk | ⟨hk, he⟩
  · obtain ⟨r, h1, h2⟩ := C12_v4 t hk h
    obtain rfl := Out.ok.inj (hraw.symm.trans h1)
    exact h2 _ _ _ hd
  · obtain ⟨r, h1, h2⟩ := C12_v3_partial t hk he h
    obtain rfl := Out.ok.inj (hraw.symm.trans h1)
    exact h2 _ _ _ hd

theorem keyPkt_readAt_wf {k : KeyPkt} (hk : k.wf) {data : Bytes} {pos : Nat} {rest : Bytes}
    (hd : data.drop pos = k.rawCommon ++ rest) :
    KeyPkt.readAt ⟨data, pos, k.rawCommon.length, false⟩ = .ok k := by
  rcases hk with hk | ⟨hk, he⟩
  · exact C11_v4 k hk _ _ _ hd
  · obtain ⟨k', h1, -, -, -, -, h2⟩ := C11_v3_partial k hk _ _ _ hd
    rw [h1, h2.mpr he]

theorem simple_parse {n start : Nat} {b : Body (SigAt n)} (h : b.simpleWf) {raw data rest : Bytes}
    (hraw : b.raw (rawAt n) = .ok raw) (hd : data.drop start = raw ++ rest) (hl : start ≤ data.length) :
    Body.parse (readSigAt n) b.tag ⟨data, start, raw.length, false⟩ = .ok b := by
  obtain ⟨r, h1, h2⟩ := C13_simple (readSigAt n) (rawAt n) b h
  obtain rfl := Out.ok.inj (hraw.symm.trans h1)
  exact h2 data start rest false hl hd

theorem Body.parse_at {n start : Nat} {b : Body (SigAt n)} (h : b.okAt n start) {raw data rest : Bytes}
    (hraw : b.raw (rawAt n) = .ok raw) (hd : data.drop start = raw ++ rest) (hl : start ≤ data.length) :
    Body.parse (readSigAt n) b.tag ⟨data, start, raw.length, false⟩ = .ok b := by
  cases b with
  | pkesk t =>
    obtain rfl := Out.ok.inj hraw
    obtain ⟨hw, hs⟩ := h
    change Body.pkesk <$> _ = _
    rw [C14_pkesk_partial t hw data start rest hd hs]; rfl
  | sig s =>
    obtain rfl := Out.ok.inj hraw
    have := C10_v4_partial n s h.1 h.2 data start rest hd
    change Body.sig <$> Tag2.readAt (readSigAt n) ⟨data, start, (rawAt (n + 1) s).length, false⟩ = _
    rw [this]; rfl
  | skesk t =>
    obtain rfl := Out.ok.inj hraw
    change Body.skesk <$> _ = _
    rw [Tag3.readAt_ok t h hd]; rfl
  | secretKey t =>
    change Body.secretKey <$> _ = _
    rw [tag5_readAt_wf h.1 h.2 hraw hd]; rfl
  | secretSubkey t =>
    change Body.secretSubkey <$> _ = _
    rw [tag5_readAt_wf h.1 h.2 hraw hd]; rfl
  | publicKey k =>
    obtain rfl := Out.ok.inj hraw
    change Body.publicKey <$> _ = _
    rw [keyPkt_readAt_wf h hd]; rfl
  | publicSubkey k =>
    obtain rfl := Out.ok.inj hraw
    change Body.publicSubkey <$> _ = _
    rw [keyPkt_readAt_wf h hd]; rfl
  | userAttr l =>
    obtain rfl := Out.ok.inj hraw
    change Body.userAttr <$> _ = _
    rw [C13_user_attribute_partial l h.1 data start rest hd h.2]; rfl
  | onePass _ | compressed _ _ | symEnc _ | marker _ | literal _ | trust _ | userId _ | seip _ _ | mdc _ | priv _ _ =>
    refine simple_parse ?_ hraw hd hl
    exact h

/-- Every packet of the list, written from offset `off` on, has a body that can be read back there: its length is
readable (C05) and it is `okAt` the offset where its body starts. -/
def placed (n : Nat) : (off : Nat) → List (Pkt (SigAt n)) → Prop
  | _, [] => True
  | off, p :: ps => ∃ r, p.body.raw (rawAt n) = .ok r ∧ readable p.fmt p.body.tag r ∧ p.part = false ∧
      p.body.okAt n (off + ((packetOctets p.fmt p.body.tag r).length - r.length)) ∧
      placed n (off + (packetOctets p.fmt p.body.tag r).length) ps

theorem placed_loop (n : Nat) (ps : List (Pkt (SigAt n))) : ∀ (off : Nat), placed n off ps →
    ∃ out, writeRaw (Pkt.write (rawAt n)) ps = .ok out ∧ ps.length ≤ out.length ∧
      ∀ (data : Bytes) (fuel : Nat), off ≤ data.length → data.drop off = out → ps.length < fuel →
        readRawLoop (Pkt.parse (readSigAt n)) data fuel off = .ok ps := by
  induction ps with
  | nil =>
    intro off _
    refine ⟨[], rfl, by simp, ?_⟩
    intro data fuel _ hd hf
    cases fuel with
    | zero => simp at hf
    | succ fuel =>
      have : ¬ off < data.length := by
        have := List.drop_eq_nil_iff.mp hd
        omega
      simp [readRawLoop, this]
  | cons p ps ih =>
    intro off h
    obtain ⟨r, hraw, hr, hpart, hok, hps⟩ := h
    obtain ⟨out, hw, hlen, hread⟩ := ih _ hps
    have hpos : 0 < (packetOctets p.fmt p.body.tag r).length := List.length_pos_iff.mpr (packetOctets_ne_nil _ _ _)
    refine ⟨packetOctets p.fmt p.body.tag r ++ out, ?_, ?_, ?_⟩
    · rw [writeRaw, Pkt.write, hraw, Out.ok_bind, hpart, writePacket_eq _ _ _ hr.1, Out.ok_bind, hw]
      rfl
    · rw [List.length_append, List.length_cons]; omega
    · intro data fuel hl hd hf
      cases fuel with
      | zero => simp at hf
      | succ fuel =>
        obtain ⟨ctb, start, h1, h2, h3, h4, h5, h6⟩ := frame_at hd hr.1 hr.2.2
        have hlt : off < data.length := by omega
        have hstart : start = off + ((packetOctets p.fmt p.body.tag r).length - r.length) := by omega
        rw [← hstart] at hok
        have hparse := Body.parse_at hok hraw h4 h5
        have hl' := le_of_drop hl hd
        have hrest := hread data fuel hl' (drop_add_of hd) (by simpa using hf)
        rw [readRawLoop, if_pos hlt]
        simp only [readPacket, h1, Out.ok_bind, h2, Bool.false_and, Bool.false_eq_true, if_false, hr.2.1, Bool.not_true,
          Pkt.parse, hparse, Out.pure_eq, hrest]
        obtain ⟨fmt, part, body⟩ := p
        simp only at hpart
        rw [hpart]

/-- `PGP::read_raw(PGP::raw())` for packet objects: any list of packets of any of the library's kinds (signatures with
embedded signatures to depth `n`), placed from the beginning of the input, is written without error and read back as
the same list of objects, in order. -/
theorem C06_packets_partial (n : Nat) (ps : List (Pkt (SigAt n))) (h : placed n 0 ps) :
    ∃ out, writeRaw (Pkt.write (rawAt n)) ps = .ok out ∧ readRaw (Pkt.parse (readSigAt n)) out = .ok ps := by
  obtain ⟨out, hw, hlen, hread⟩ := placed_loop n ps 0 h
  exact ⟨out, hw, hread out (out.length + 1) (by omega) (by simp) (by omega)⟩

/-- A public key with a user ID, a self-signature, a subkey in the old format and a literal packet. -/
def c06Packets : List (Pkt (SigAt 0)) :=
  [⟨.new, false, .publicKey ⟨4, 1500000000, 1, [0xffee, 17], 0⟩⟩, ⟨.new, false, .userId [97, 98]⟩,
   ⟨.new, false, .sig c10Inner⟩, ⟨.old, false, .publicSubkey ⟨4, 1500000000, 17, [3, 5, 7, 9], 0⟩⟩,
   ⟨.old, false, .literal ⟨0x62, [97], 5, [1, 2]⟩⟩]

example : placed 0 0 c06Packets := by
  refine ⟨_, rfl, ⟨by simp [validTag, Body.tag], rfl, ?_⟩, rfl, Or.inl ⟨rfl, rfl, by decide, by decide, rfl⟩, ?_⟩
  · exact ⟨by decide, by decide⟩
  refine ⟨_, rfl, ⟨by simp [validTag, Body.tag], rfl, ?_⟩, rfl, trivial, ?_⟩
  · exact ⟨by decide, by decide⟩
  refine ⟨_, rfl, ⟨by simp [validTag, Body.tag], rfl, ?_⟩, rfl, ⟨?_, rfl⟩, ?_⟩
  · exact ⟨by decide +kernel, by decide +kernel⟩
  · refine ⟨rfl, rfl, by decide, Or.inl ⟨rfl, ?_, ?_, by decide +kernel, by decide +kernel, rfl, rfl⟩⟩ <;>
    · intro x hx
      simp only [c10Inner, List.mem_cons, List.not_mem_nil, or_false] at hx
      subst hx
      simp [SubBody.wf, SubBody.wellSized]
  refine ⟨_, rfl, ⟨by simp [validTag, Body.tag], rfl, ?_⟩, rfl, Or.inl ⟨rfl, rfl, by decide, by decide, rfl⟩, ?_⟩
  · simp only [readableLen]; decide
  refine ⟨_, rfl, ⟨by simp [validTag, Body.tag], rfl, ?_⟩, rfl, ⟨by decide, by decide⟩, trivial⟩
  simp only [readableLen]; decide

end OpenPGP
