import Verif.Lemmas.CryptSigned
import Verif.Lemmas.Signed
import Verif.Props.C26
import Verif.Props.C36

/-!
# What is encrypted when there is a signing key
-/
namespace OpenPGP

/-- The signed message with compression is the compressed one without. -/
theorem signBinary_comp {E : Type} {cr : Crypto} {z : Zip} {rawE : E → Bytes} {readE : Bytes → Out E} {depth now : Nat} {a : SignArgs E} {draws : List Nat}
    {filename data : Bytes} {m0 : Msg E} (h0 : signBinary cr z rawE readE depth a now draws filename data 0 = .ok m0) (hne : m0 ≠ .empty) (comp : UInt8) :
    signBinary cr z rawE readE depth a now draws filename data comp = compressSigned z rawE readE depth comp m0 := by
  rw [signBinary] at h0 ⊢
  obtain ⟨v, hv, h0⟩ := Out.bind_eq_ok.mp h0
  rw [hv, Out.ok_bind]
  cases v with
  | false => exact absurd (Out.ok.inj h0).symm hne
  | true =>
    simp only [Bool.not_true, Bool.false_eq_true, if_false] at h0 ⊢
    obtain ⟨t, ht, h0⟩ := Out.bind_eq_ok.mp h0
    rw [ht, Out.ok_bind]
    cases t with
    | none => exact absurd (Out.ok.inj h0).symm hne
    | some t =>
      dsimp only at h0 ⊢
      obtain ⟨kid, hk, h0⟩ := Out.bind_eq_ok.mp h0
      rw [hk, Out.ok_bind]
      obtain ⟨kid', hk', h0⟩ := Out.bind_eq_ok.mp h0
      rw [hk', Out.ok_bind]
      obtain ⟨s, hs, h0⟩ := Out.bind_eq_ok.mp h0
      rw [hs, Out.ok_bind]
      cases s with
      | none => exact absurd (Out.ok.inj h0).symm hne
      | some s =>
        dsimp only at h0 ⊢
        rw [compressSigned, if_pos rfl] at h0
        rw [← Out.ok.inj h0]

/-- The signed message: its packets are read back. -/
theorem signBinary_placed {n : Nat} {cr : Crypto} (hcr : cr.Ok) {z : Zip} {depth now : Nat} (hnow : now < 2 ^ 32) {a : SignArgs (SigAt n)}
    {before : List (Pkt (SigAt n))} {t : Tag5} {pri : List Nat} (hc : CanSign cr a before t pri) (hv : a.version = 4) (hsm : SmallKey t.key)
    (hn : (hashLen a.hash).isSome) {draws : List Nat} {filename data : Bytes} (hname : filename.length < 256)
    (hlen : readableLen .new (6 + filename.length + data.length)) {pub : KeyObj (SigAt n)} (hpub : a.pri.getPublic = .ok pub) {m0 : Msg (SigAt n)}
    (h0 : signBinary cr z (rawAt n) (readSigAt n) depth a now draws filename data 0 = .ok m0) :
    ∃ o s, m0 = ⟨none, [⟨.new, false, .onePass o⟩, ⟨.new, false, .literal ⟨0x62, filename, now, data⟩⟩, ⟨.new, false, .sig s⟩]⟩ ∧ placed n 0 m0.packets ∧
      ∀ comp depth', verifyBinary cr z (rawAt n) (readSigAt n) (depth' + 1) pub ⟨comp, m0.packets⟩ = .ok .yes := by
  obtain ⟨N, hn⟩ := Option.isSome_iff_exists.mp hn
  rw [signBinary, SignArgs.valid_of hc (Or.inr hv) hn, Out.ok_bind] at h0
  simp only [Bool.not_true, Bool.false_eq_true, if_false] at h0
  rw [hc.signerOf, Out.ok_bind] at h0
  dsimp only at h0
  obtain ⟨kid, hkid, h0⟩ := Out.bind_eq_ok.mp h0
  have h8 := keyid_length cr hcr hkid
  rw [Tag4.checkKeyid, if_neg (by simp [h8]), Out.ok_bind] at h0
  obtain ⟨r, hr, h0⟩ := Out.bind_eq_ok.mp h0
  have hr' := hr
  obtain ⟨i, vals, n', hi, hn', rfl, hsh⟩ := makeSig_ok hcr hc rfl hr
  dsimp only at h0
  rw [compressSigned, if_pos rfl] at h0
  rw [hv] at hr' h0
  obtain ⟨w1, w2, w3⟩ := made_wf hcr hc hsm hkid hnow hr'
  have h0 := (Out.ok.inj h0).symm
  refine ⟨_, _, h0, ?_, ?_⟩
  · rw [h0]
    refine ⟨_, rfl, ⟨by simp [validTag, Body.tag], rfl, ?_⟩, rfl, ⟨rfl, h8⟩, _, rfl, ⟨by simp [validTag, Body.tag], rfl, ?_⟩, rfl, ⟨hname, hnow⟩,
      _, rfl, ⟨by simp [validTag, Body.tag], rfl, by simp only [readableLen]; omega⟩, rfl, ⟨w1, w2⟩, trivial⟩
    · simp [readableLen, Tag4.raw, h8]
    · have : (Tag11.raw ⟨0x62, filename, now, data⟩).length = 6 + filename.length + data.length := by
        simp [Tag11.raw]
        omega
      rw [this]
      exact hlen
  · intro comp depth'
    rw [h0]
    obtain ⟨pub', hpub', -, hpm, hsz, ⟨kp, hsk, hmpi, hkk⟩, -⟩ := hc.public
    rw [hpub] at hpub'
    obtain rfl := Out.ok.inj hpub'
    refine verifyBinary_signed cr hcr z (rawAt n) (readSigAt n) depth' pub hsz hpm hsk comp ⟨0x62, filename, now, data⟩ (by rw [hkk, hkid]) _ (i := i) ?_ ⟨⟨n', hn'⟩, hmpi ▸ hsh⟩
    rw [hv] at hi
    exact hi

/-- The octets that get encrypted, and what they are read as. -/
theorem plainOctets_signed {n : Nat} (w : World (SigAt n)) (hraw : w.rawE = rawAt n) (hread : w.readE = readSigAt n) (hdep : 0 < w.depth) (a : EncArgs)
    (hc : a.comp ≤ 3) (k : KeyObj (SigAt n)) (spass : Bytes) (ps : List (Pkt (SigAt n))) (htags : ps.map (·.body.tag) = [4, 11, 2])
    (h0 : signBinary w.cr w.z w.rawE w.readE w.depth ⟨k, spass, 4, a.hash⟩ w.now w.nonces a.filename a.data 0 = .ok ⟨none, ps⟩) (hp : placed n 0 ps)
    (hz : a.comp ≠ 0 → ∀ out, writeRaw (Pkt.write w.rawE) ps = .ok out → w.z.Undoes a.comp out)
    (hfit : a.comp ≠ 0 → ∀ out d, writeRaw (Pkt.write w.rawE) ps = .ok out → compress w.z a.comp out = .ok d → readableLen .new (1 + d.length) ∧
      ∀ l ∈ getlines (packetOctets .new 8 (a.comp :: d)), ¬ ascii "-----BEGIN PGP " <+: rtrim l) :
    ∃ plain, plainOctets w a (some (k, spass)) = .ok (some plain) ∧ ∀ depth, 2 ≤ depth →
      Msg.readRaw w.z w.readE depth plain = .ok ⟨if a.comp = 0 then none else some (.new, false, a.comp), ps⟩ := by
  have hne : (⟨none, ps⟩ : Msg (SigAt n)) ≠ .empty := by
    intro h
    have : ps = [] := congrArg Msg.packets h
    rw [this] at htags
    simp at htags
  have hgood : messageMeaningful (ps.map (·.body.tag)) = .ok true := by rw [htags]; decide
  rw [hraw, hread] at h0
  obtain ⟨out, hw, hrd⟩ := C06_packets_partial n ps hp
  have hinner : ∀ (d : Nat) (comp : Option (Fmt × Bool × UInt8)), Msg.readLoop w.z (readSigAt n) (d + 1) comp out = .ok ⟨comp, ps⟩ := by
    intro d comp
    rw [Msg.readLoop, hrd, Out.ok_bind, hgood, Out.ok_bind]
    simp only [Bool.not_true, Bool.false_eq_true, if_false]
    split
    · simp at htags
    · rfl
  have hmap : ∀ x : Bytes, (some <$> (Out.ok x : Out Bytes)) = Out.ok (some x) := fun _ => rfl
  simp only [plainOctets]
  rw [hraw, hread, signBinary_comp h0 hne a.comp]
  by_cases hc0 : a.comp = 0
  · refine ⟨out, ?_, fun depth hd => ?_⟩
    · rw [compressSigned, if_pos hc0, Out.ok_bind, Msg.meaningful, hgood, Out.ok_bind]
      simp only [Bool.not_true, Bool.false_eq_true, if_false, Msg.raw, hw, Out.ok_bind]
      rfl
    · rw [if_pos hc0]
      obtain ⟨d, rfl⟩ : ∃ d, depth = d + 1 := ⟨depth - 1, by omega⟩
      exact hinner d none
  · rw [hraw] at hz hfit
    obtain ⟨d, hd1, hd2⟩ := decompress_compress hc out (fun _ _ => hz hc0 out hw)
    obtain ⟨hfl, harm⟩ := hfit hc0 out d hw hd1
    have hrawc : Body.raw (rawAt n) (.compressed a.comp d) = .ok (a.comp :: d) := rfl
    have hwr : Pkt.write (rawAt n) ⟨.new, false, .compressed a.comp d⟩ = .ok (packetOctets .new 8 (a.comp :: d)) :=
      write_eq (rawAt n) .new (.compressed a.comp d) hrawc (by simp [validTag, Body.tag])
    have hrdc : readRaw (Pkt.parse (readSigAt n)) (packetOctets .new 8 (a.comp :: d)) = .ok [⟨.new, false, .compressed a.comp d⟩] :=
      readRaw_single (readSigAt n) (rawAt n) .new (.compressed a.comp d) (by trivial) hrawc ⟨by simp [validTag, Body.tag], rfl, by
        rw [List.length_cons, Nat.add_comm]; exact hfl⟩
    have hpr := (C15_binary (Pkt.parse (readSigAt n)) ⟨false, 0, [], [⟨.new, false, .compressed a.comp d⟩]⟩ _ harm hrdc).2
    have h8 : messageMeaningful [8] = .ok true := by decide
    have hcs : compressSigned w.z (rawAt n) (readSigAt n) w.depth a.comp ⟨none, ps⟩ = .ok ⟨some (.new, false, a.comp), ps⟩ := by
      rw [compressSigned, if_neg hc0, Msg.raw, hw, Out.ok_bind]
      simp only [Out.pure_eq, Out.ok_bind, hd1, hwr]
      rw [Msg.ofString, hpr, Out.ok_bind]
      simp only [List.map_cons, List.map_nil, Body.tag, h8, Out.ok_bind, Bool.not_true, Bool.false_eq_true, if_false, hd2]
      obtain ⟨k, hk⟩ : ∃ k, w.depth = k + 1 := ⟨w.depth - 1, by omega⟩
      rw [hk]
      exact hinner k _
    have hmr : Msg.raw w.z (rawAt n) ⟨some (.new, false, a.comp), ps⟩ = .ok (packetOctets .new 8 (a.comp :: d)) := by
      rw [Msg.raw, hw, Out.ok_bind]
      dsimp only
      rw [hd1, Out.ok_bind, hwr]
    refine ⟨packetOctets .new 8 (a.comp :: d), ?_, fun depth hd => ?_⟩
    · rw [hcs, Out.ok_bind, Msg.meaningful, hgood, Out.ok_bind]
      rw [if_neg (by simp), hmr, hmap]
    · rw [if_neg hc0]
      obtain ⟨k, rfl⟩ : ∃ k, depth = k + 2 := ⟨depth - 2, by omega⟩
      rw [Msg.readRaw, Msg.readLoop, hrdc, Out.ok_bind]
      simp only [List.map_cons, List.map_nil, Body.tag, h8, Out.ok_bind, Bool.not_true, Bool.false_eq_true, if_false, hd2]
      exact hinner k _

end OpenPGP
