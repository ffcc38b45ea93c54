import Verif.Lemmas.Tag2
import Verif.Props.C09

/-!
# C10: signature packets survive write and read

Version 4 signatures survive at every position of the input, with subpackets, MPIs and embedded signatures nested to any
depth (`C10_v4_partial`); partial because of the subpacket values of C09 which are lost. Version 3 signatures survive
only at the very beginning of the octets (`C10_v3_partial`): inside a packet stream the reader looks for
the MPIs at the wrong place (`C10_v3_stream_fails`).
-/
namespace OpenPGP

/-- Subpacket values that survive (C09), with `wfE` for embedded signatures. -/
def SubBody.wf {E : Type} (wfE : E → Prop) (b : SubBody E) : Prop :=
  b.wellSized ∧ (∀ f m n, b = .«notation» f m n → m = [] ∧ n = []) ∧ (∀ p h, b ≠ .target p h []) ∧
  ∀ e, b = .embedded (some e) → wfE e

/-- A signature packet as RFC 4880 prescribes it: two octets of the hash, one MPI (RSA) or two (DSA) of at most 65528
bits, subpacket areas of less than 65536 octets. `time` and `keyid` belong to version 3, the areas to version 4. -/
def Tag2.wf {E : Type} (wfE : E → Prop) (rawE : E → Bytes) (s : Tag2 E) : Prop :=
  s.left16.length = 2 ∧
  s.mpi.length = (if s.pka = 17 then 2 else 1) ∧
  (∀ a ∈ s.mpi, bitsize a ≤ 65528) ∧
  ((s.version = 4 ∧ (∀ x ∈ s.hashed, x.body.wf wfE) ∧ (∀ x ∈ s.unhashed, x.body.wf wfE) ∧
      (writeSubpackets rawE s.hashed).length < 65536 ∧ (writeSubpackets rawE s.unhashed).length < 65536 ∧
      s.time = 0 ∧ s.keyid = []) ∨
   (s.version = 3 ∧ (isRSA s.pka = true ∨ s.pka = 17) ∧ s.time < 2 ^ 32 ∧ s.keyid.length = 8 ∧
      s.hashed = [] ∧ s.unhashed = []))

/-- Well-formed signatures, with embedded signatures well-formed at every level. -/
def wfSig : (n : Nat) → SigAt n → Prop
  | 0, e => e.elim
  | n + 1, s => Tag2.wf (wfSig n) (rawAt n) s

theorem survives_of_wf {E : Type} {wfE : E → Prop} {readE : Bytes → Out E} {rawE : E → Bytes} {b : SubBody E}
    (h : b.wf wfE) (hE : ∀ e, wfE e → EmbOk readE rawE e) : b.survives readE rawE := by
  obtain ⟨h0, h1, h2, h3⟩ := h
  cases b with
  | «notation» f m n => exact ⟨h0.1, h1 f m n rfl⟩
  | target p h s => intro hs; exact h2 p h (by rw [hs])
  | embedded e =>
    cases e with
    | none => trivial
    | some e => exact hE e (h3 e rfl)
  | _ => exact h0

theorem okV4_of_wf {E : Type} {wfE : E → Prop} {readE : Bytes → Out E} {rawE : E → Bytes} {s : Tag2 E}
    (h : s.wf wfE rawE) (hE : ∀ e, wfE e → EmbOk readE rawE e) (h4 : s.version = 4) : s.okV4 readE rawE := by
  obtain ⟨a, b, c, d | d⟩ := h
  · exact ⟨h4, a, b, c, fun x hx => survives_of_wf (d.2.1 x hx) hE, fun x hx => survives_of_wf (d.2.2.1 x hx) hE,
      d.2.2.2.1, d.2.2.2.2.1, d.2.2.2.2.2.1, d.2.2.2.2.2.2⟩
  · exact absurd (h4.symm.trans d.1) (by decide)

theorem okV3_of_wf {E : Type} {wfE : E → Prop} {rawE : E → Bytes} {s : Tag2 E}
    (h : s.wf wfE rawE) (h3 : s.version = 3) : s.okV3 := by
  obtain ⟨a, b, c, d | d⟩ := h
  · exact absurd (h3.symm.trans d.1) (by decide)
  · exact ⟨h3, a, d.2.1, b, c, d.2.2.1, d.2.2.2.1, d.2.2.2.2.1, d.2.2.2.2.2⟩

theorem ofBytes_v3 {E : Type} (readE : Bytes → Out E) (rawE : E → Bytes) (s : Tag2 E) (hs : s.okV3) :
    Tag2.ofBytes readE (s.raw rawE) = .ok s := by
  have hne : s.raw rawE = 3 :: (s.raw rawE).tail := by simp [Tag2.raw, hs.version]
  have h := readV3_at rawE s hs []
  rw [List.append_nil] at h
  have hc : charAt (s.raw rawE) 0 = .ok 3 := charAt_drop (pos := 0) (rest := (s.raw rawE).tail) (by rw [← hne]; rfl)
  simp only [Tag2.ofBytes, Tag2.readAt, tagRead, Tag2.actualRead]
  rw [if_neg (by rw [hne]; simp), hc, Out.ok_bind, if_pos rfl, h]
  simp

theorem wfSig_ok (n : Nat) (s : SigAt n) (h : wfSig n s) : EmbOk (readSigAt n) (rawAt n) s := by
  induction n with
  | zero => exact s.elim
  | succ n ih =>
    have hv : s.version = 4 ∨ s.version = 3 := h.2.2.2.imp (·.1) (·.1)
    refine ⟨by simp [rawAt, Tag2.raw], ?_⟩
    change Tag2.ofBytes (readSigAt n) (Tag2.raw (rawAt n) s) = .ok s
    rcases hv with hv | hv
    · exact readAt_v4 (readSigAt n) (rawAt n) s (okV4_of_wf h (fun e he => ih e he) hv) (pos := 0) (rest := [])
        (by simp)
    · exact ofBytes_v3 _ _ s (okV3_of_wf h hv)

/-- A version 4 signature packet body anywhere in the input is read back as the same object: type, algorithms, both
subpacket areas, left 16 bits, MPIs, and signatures embedded in it (of version 3 or 4, to any depth). -/
theorem C10_v4_partial (n : Nat) (s : SigAt (n + 1)) (h : wfSig (n + 1) s) (hv : Tag2.version s = 4)
    (data : Bytes) (pos : Nat) (rest : Bytes) (hd : data.drop pos = rawAt (n + 1) s ++ rest) :
    Tag2.readAt (readSigAt n) ⟨data, pos, (rawAt (n + 1) s).length, false⟩ = .ok s :=
  readAt_v4 (readSigAt n) (rawAt n) s (okV4_of_wf h (fun e he => wfSig_ok n e he) hv) hd

/-- A version 4 signature with a creation time, an issuer and key flags. -/
def c10Inner : SigAt 1 :=
  ⟨4, 0x19, 1, 8, [5], [1, 2], 0, [], [⟨false, .sigTime 77⟩], [⟨false, .issuer [1, 2, 3, 4, 5, 6, 7, 8]⟩]⟩

/-- A subkey binding carrying the signature above. -/
def c10Sig : SigAt 2 :=
  ⟨4, 0x18, 17, 8, [5, 9], [1, 2], 0, [], [⟨false, .sigTime 78⟩, ⟨true, .keyFlags [2]⟩, ⟨false, .embedded (some c10Inner)⟩], []⟩

example : wfSig 2 c10Sig ∧ Tag2.version c10Sig = 4 := by
  refine ⟨⟨rfl, rfl, by decide, Or.inl ⟨rfl, ?_, by simp [c10Sig], by decide +kernel, by decide +kernel, rfl, rfl⟩⟩, rfl⟩
  intro x hx
  simp only [c10Sig, List.mem_cons, List.not_mem_nil, or_false] at hx
  rcases hx with rfl | rfl | rfl
  · simp [SubBody.wf, SubBody.wellSized]
  · simp [SubBody.wf, SubBody.wellSized]
  · refine ⟨trivial, by simp, by simp, ?_⟩
    intro e he
    obtain rfl : c10Inner = e := by simpa using he
    refine ⟨rfl, rfl, by decide, Or.inl ⟨rfl, ?_, ?_, by decide +kernel, by decide +kernel, rfl, rfl⟩⟩ <;>
      · intro x hx
        simp only [c10Inner, List.mem_cons, List.not_mem_nil, or_false] at hx
        subst hx
        simp [SubBody.wf, SubBody.wellSized]

/-- A version 3 signature read from its own octets is the same object; so is a version 4 signature. -/
theorem C10_v3_partial (n : Nat) (s : SigAt (n + 1)) (h : wfSig (n + 1) s) :
    readSigAt (n + 1) (rawAt (n + 1) s) = .ok s := (wfSig_ok (n + 1) s h).2

/-- A version 3 RSA signature. -/
def c10V3 : SigAt 1 := ⟨3, 0, 1, 8, [0x1ff], [0, 9], 1000, [1, 2, 3, 4, 5, 6, 7, 8], [], []⟩

example : wfSig 1 c10V3 ∧ Tag2.version c10V3 = 3 :=
  ⟨⟨rfl, rfl, by decide, Or.inr ⟨rfl, Or.inl rfl, by decide, rfl, rfl, rfl⟩⟩, rfl⟩

/-- Disagreement: in a packet stream (body behind a two-octet header) the same signature is refused. -/
theorem C10_v3_stream_fails :
    Tag2.readAt (readSigAt 0) ⟨[0xc2, 23] ++ rawAt 1 c10V3, 2, (rawAt 1 c10V3).length, false⟩ = .throw := by
  decide +kernel

/-- In general a version 3 signature's MPIs are looked for at offset 19 of the whole input: what is read does not
depend on where the signature's own MPIs are. -/
theorem C10_v3_absolute_fails {E : Type} (readE : Bytes → Out E) (data : Bytes) (pos len : Nat) (s : Tag2 E)
    (hl : len ≠ 0) (hv : charAt data pos = .ok 3)
    (hr : Tag2.readAt readE ⟨data, pos, len, false⟩ = .ok s) :
    ∃ p, readMPIs data (if s.pka = 17 then 2 else 1) 19 = .ok (s.mpi, p) ∧ p = pos + len := by
  simp only [Tag2.readAt, tagRead, Tag2.actualRead, if_neg hl, hv, Out.ok_bind, if_true, Tag2.readV3] at hr
  rw [Out.bind_eq_ok] at hr
  obtain ⟨⟨t, p⟩, h1, h2⟩ := hr
  rw [Out.bind_eq_ok] at h1; obtain ⟨five, -, h1⟩ := h1
  split at h1; · exact absurd h1 (by simp)
  rw [Out.bind_eq_ok] at h1; obtain ⟨ty, -, h1⟩ := h1
  rw [Out.bind_eq_ok] at h1; obtain ⟨ti, -, h1⟩ := h1
  rw [Out.bind_eq_ok] at h1; obtain ⟨k, -, h1⟩ := h1
  split at h1; · exact absurd h1 (by simp)
  rw [Out.bind_eq_ok] at h1; obtain ⟨pka, -, h1⟩ := h1
  rw [Out.bind_eq_ok] at h1; obtain ⟨ha, -, h1⟩ := h1
  rw [Out.bind_eq_ok] at h1; obtain ⟨l16, -, h1⟩ := h1
  have key : ∀ cnt, (readMPIs data cnt 19 >>= fun x =>
      (pure (⟨3, ty, pka, ha, x.1, l16, toint256 ti % 2 ^ 32, k, [], []⟩, x.2) : Out (Tag2 E × Nat))) = .ok (t, p) →
      t.pka = pka ∧ readMPIs data cnt 19 = .ok (t.mpi, p) := by
    intro cnt h
    rw [Out.bind_eq_ok] at h
    obtain ⟨⟨m, p'⟩, hm, h⟩ := h
    simp only [Out.pure_eq, Out.ok.injEq, Prod.mk.injEq] at h
    obtain ⟨rfl, rfl⟩ := h
    exact ⟨rfl, hm⟩
  have hm : t.pka = pka ∧ readMPIs data (if pka = 17 then 2 else 1) 19 = .ok (t.mpi, p) := by
    by_cases h17 : pka = 17
    · subst h17
      rw [if_neg (by decide), if_pos rfl] at h1
      exact key 2 h1
    · rw [if_neg h17]
      split at h1
      · exact key 1 h1
      · exact absurd h1 (by simp)
  simp only [Bool.true_and] at h2
  split at h2
  · exact absurd h2 (by simp)
  · rename_i hne
    simp only [bne_iff_ne, ne_eq, Decidable.not_not] at hne
    obtain rfl := Out.ok.inj h2
    exact ⟨p, by rw [hm.1]; exact hm.2, hne⟩

end OpenPGP
