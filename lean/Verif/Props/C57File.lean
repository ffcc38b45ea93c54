import Verif.Props.C57
import Verif.Props.C75

/-!
# C57: `sign-file` with compression

The default of `sign-file` is to compress. The message is packed by `Sign::binary` and once more when it is written (C75_twice_fails), and `verify-file` undoes both.
-/
namespace OpenPGP.Cli
open OpenPGP OpenPGP.Cli.Module Commands Rfc

/-- Verification does not look at the compression. -/
theorem verifyBinary_comp {E : Type} (cr : Crypto) (z : Zip) (rawE : E → Bytes) (readE : Bytes → Out E) (depth : Nat) (k : KeyObj E) (comp comp' : Option (Fmt × Bool × UInt8))
    (ps : List (Pkt E)) : verifyBinary cr z rawE readE depth k ⟨comp, ps⟩ = verifyBinary cr z rawE readE depth k ⟨comp', ps⟩ := by
  cases depth with
  | zero => rfl
  | succ d => simp only [verifyBinary, Msg.meaningful]

/-- `sign-file KEY PASSPHRASE FILE` with any compression: `verify-file` says that the data was signed, and the file is in the message. `hz` says that the two layers can be read back
(C54, C05) and that the packed octets do not look like armor (C15_binary_confused_fails). -/
theorem C57_file_compressed (n : Nat) (e e' : Env (SigAt n)) (same : SameLib n e e') (hcr : e.cr.Ok) (hnow : e.now < 2 ^ 32) (hdep : 0 < e.depth) (hdep' : 2 ≤ e'.depth)
    (l : Line) (hl : l.fits (signFile e).opts (signFile e).flags) (hd : [45, 45] ∉ l.verbatim.getD []) (ha : ¬ l.has (ascii "-a"))
    (c : UInt8) (hcomp : compNumbers.lookup ((l.values (ascii "-c")).getLast?.getD (ascii "ZLIB")) = some c) (hc0 : c ≠ 0)
    (kname pass name f : Bytes) (hw : l.words.take 3 = [kname, pass, name]) (a : SignArgs (SigAt n)) (t : Tag5) (pub : KeyObj (SigAt n))
    (hsig : Signer n e l kname pass a t pub) (hf : e.files name = some f) (hname : name.length < 256)
    (hlen : readableLen .new (6 + name.length + f.length))
    (hz : ∀ m0 packets, signBinary e.cr e.z e.rawE e.readE e.depth a e.now e.nonces name f 0 = .ok m0 → writeRaw (Pkt.write (rawAt n)) m0.packets = .ok packets →
      Carries e.z .new c packets ∧ ∀ d, compress e.z c packets = .ok d → Carries e.z .new c (packetOctets .new 8 (c :: d)) ∧
        ∀ x ∈ getlines (packetOctets .new 8 (c :: d)), ¬ ascii "-----BEGIN PGP " <+: rtrim x)
    (out : Bytes) (hout : main (ordered e) (ascii "sign-file" :: l.spell) = .ok ⟨0, out⟩)
    (l' : Line) (hl' : l'.fits (verifyFile e').opts (verifyFile e').flags) (hd' : [45, 45] ∉ l'.verbatim.getD [])
    (pname mname : Bytes) (hw' : l'.words.take 2 = [pname, mname]) (pf : Bytes) (hpf : e'.files pname = some pf)
    (hs' : List (Bytes × Bytes)) (hkey : keyOf e'.readE pf = .ok (hs', pub)) (hsf : e'.files mname = some out) :
    (∃ id, pub.keyid e.cr = .ok id ∧ main (ordered e') (ascii "verify-file" :: l'.spell) =
      .ok ⟨0, wording (ascii "The data in \"" ++ mname ++ ascii "\" was") (byKey pname id) .yes⟩) ∧
    ∃ o s, Msg.ofString e'.z e'.readE e'.depth out =
      .ok ⟨some (.new, false, c), [⟨.new, false, .onePass o⟩, ⟨.new, false, .literal ⟨0x62, name, e.now, f⟩⟩, ⟨.new, false, .sig s⟩]⟩ := by
  obtain ⟨p, ht, hr⟩ := C56_command e (signFile e) (by simp [ordered]) l hl hd (show 3 ≤ _ from words_le hw rfl)
  have hr := ((hr ⟨0, out⟩).trans ends_iff).mp hout
  have a1 : p.flag "-a" = .ok true := by
    have := ht.flag (ascii "-a") true (show List.lookup _ [_] = _ by decide +kernel)
    rw [if_neg ha] at this
    exact flag_ok this
  have a2 : p.arg "-c" = .ok ((l.values (ascii "-c")).getLast?.getD (ascii "ZLIB")) := by
    have := ht.opt (ascii "-c") (ascii "ZLIB") List.lookup_cons_self
    exact arg_ok this
  have hr : Ends (signing e p (do let c ← p.arg "-c"; return (compNumbers.lookup c).isSome) fun a name f => do
      let c ← p.arg "-c"
      match compNumbers.lookup c with
      | none => failed
      | some c => do
        let m ← signBinary e.cr e.z e.rawE e.readE e.depth a e.now e.nonces name f c
        let good ← m.meaningful
        if !good then failed
        else do
          let ar ← p.flag "-a"
          let t ← writeMsg e.z e.rawE (if c = 0 then versionCc else []) m (armorOf ar)
          printed t) out := hr
  have ho : (signFile e).opts.lookup (ascii "-h") = some (ascii "SHA1") := by
    show List.lookup _ [_, _] = _
    decide +kernel
  obtain ⟨-, hr⟩ := signing_ends hsig ht rfl ho hw hf hr
  rw [a2, Out.ok_bind, hcomp] at hr
  dsimp only at hr
  obtain ⟨m, hsd, hr⟩ := ends_bind.mp hr
  obtain ⟨good, hg, hr⟩ := ends_bind.mp hr
  obtain ⟨-, hr⟩ := ends_if.mp hr
  rw [a1, Out.ok_bind] at hr
  obtain ⟨t', ht', hfin⟩ := ends_bind.mp hr
  rw [ends_printed] at hfin
  clear hr
  obtain ⟨nums, hc⟩ := hsig.can
  have hv := hsig.version
  have hn := hashNumbers_known hsig.hash
  -- the same without compression
  obtain ⟨s, o, id, ho3, ho8, hkid, w1, w2, w3, hs0, hsd⟩ : ∃ s o id, o.version = 3 ∧ o.keyid.length = 8 ∧ t.key.keyid e.cr = .ok id ∧ wfSig (n + 1) s ∧
      s.version = 4 ∧ (Tag2.raw (rawAt n) s).length < 8128 ∧
      signBinary e.cr e.z e.rawE e.readE e.depth a e.now e.nonces name f 0 = .ok ⟨none, [⟨.new, false, .onePass o⟩, ⟨.new, false, .literal ⟨0x62, name, e.now, f⟩⟩, ⟨.new, false, .sig s⟩]⟩ ∧
      compressSigned e.z e.rawE e.readE e.depth c ⟨none, [⟨.new, false, .onePass o⟩, ⟨.new, false, .literal ⟨0x62, name, e.now, f⟩⟩, ⟨.new, false, .sig s⟩]⟩ = .ok m := by
    obtain ⟨N, hn⟩ := Option.isSome_iff_exists.mp hn
    have h0 : ∀ c m', signBinary e.cr e.z e.rawE e.readE e.depth a e.now e.nonces name f c = m' → signBinary e.cr e.z e.rawE e.readE e.depth a e.now e.nonces name f c = m' := fun _ _ h => h
    have hz0 := h0 0 _ rfl
    rw [signBinary, SignArgs.valid_of hc (Or.inr hv) hn, Out.ok_bind] at hsd
    rw [signBinary, SignArgs.valid_of hc (Or.inr hv) hn, Out.ok_bind]
    simp only [Bool.not_true, Bool.false_eq_true, if_false] at hsd ⊢
    rw [hc.signerOf, Out.ok_bind] at hsd ⊢
    dsimp only at hsd ⊢
    obtain ⟨kid, hkid, hsd⟩ := Out.bind_eq_ok.mp hsd
    rw [hkid, Out.ok_bind]
    rw [Tag4.checkKeyid, if_neg (by simp [keyid_length e.cr hcr hkid]), Out.ok_bind] at hsd ⊢
    obtain ⟨r, hr', hsd⟩ := Out.bind_eq_ok.mp hsd
    obtain ⟨_, _, _, rfl, _⟩ := goodDocument_of_makeSig hcr hc hsig.pub hkid hv rfl rfl hr'
    rw [hr', Out.ok_bind]
    dsimp only at hsd ⊢
    rw [hv] at hr' hsd ⊢
    obtain ⟨x1, x2, x3⟩ := made_wf hcr hc hsig.small hkid hnow hr'
    refine ⟨_, _, kid, ?_, ?_, rfl, x1, x2, x3, ?_, hsd⟩
    · rfl
    · exact keyid_length e.cr hcr hkid
    · rw [compressSigned, if_pos rfl]
  have hyes := (C36_binary e.cr hcr e.z e.rawE e.readE e.depth (e'.depth - 1) a [] t nums hc (Or.inr hv) hn e.now e.nonces name f _ pub hsig.pub hs0).1
  rw [Nat.sub_add_cancel (by omega)] at hyes
  have hp : placed n 0 ([⟨.new, false, .onePass o⟩, ⟨.new, false, .literal ⟨0x62, name, e.now, f⟩⟩, ⟨.new, false, .sig s⟩] : List (Pkt (SigAt n))) := by
    refine ⟨_, rfl, ⟨by simp [validTag, Body.tag], rfl, ?_⟩, rfl, ⟨ho3, ho8⟩, _, rfl, ⟨by simp [validTag, Body.tag], rfl, ?_⟩, rfl, ⟨hname, hnow⟩,
      _, rfl, ⟨by simp [validTag, Body.tag], rfl, by simp only [readableLen]; omega⟩, rfl, ⟨w1, w2⟩, trivial⟩
    · simp [readableLen, Tag4.raw, ho8]
    · have : (Tag11.raw ⟨0x62, name, e.now, f⟩).length = 6 + name.length + f.length := by
        simp [Tag11.raw]
        omega
      rw [this]
      exact hlen
  obtain ⟨packets, hpk, hread⟩ := C06_packets_partial n _ hp
  obtain ⟨hcar, hcar2⟩ := hz _ packets hs0 hpk
  obtain ⟨d, k1, k2, k3, k4⟩ := carries_read n hcar
  obtain ⟨hcar2, harm⟩ := hcar2 d k1
  have hplain : ∀ comp, PlainMsg n ⟨comp, [⟨.new, false, .onePass o⟩, ⟨.new, false, .literal ⟨0x62, name, e.now, f⟩⟩, ⟨.new, false, .sig s⟩]⟩ := fun comp =>
    ⟨hp, (C29_meaningful_iff _).mp (show messageMeaningful [4, 11, 2] = .ok true by decide), by rintro ⟨fmt, part, alg, d, h⟩; simp at h⟩
  obtain rfl : (⟨some (.new, false, c), [⟨.new, false, .onePass o⟩, ⟨.new, false, .literal ⟨0x62, name, e.now, f⟩⟩, ⟨.new, false, .sig s⟩]⟩ : Msg (SigAt n)) = m := by
    have hpr := (C15_binary (Pkt.parse (readSigAt n)) ⟨false, 0, [], [⟨.new, false, .compressed c d⟩]⟩ _ harm k4).2
    rw [compressSigned, if_neg hc0, Msg.raw, same.rawE, hpk, Out.ok_bind] at hsd
    simp only [Out.pure_eq, Out.ok_bind, k1, k3] at hsd
    rw [Msg.ofString, same.readE, hpr, Out.ok_bind] at hsd
    have h8 : messageMeaningful [8] = .ok true := by decide
    simp only [List.map_cons, List.map_nil, Body.tag, h8, Out.ok_bind, Bool.not_true, Bool.false_eq_true, if_false, k2] at hsd
    obtain ⟨dep, hdp⟩ : ∃ dep, e.depth = dep + 1 := ⟨e.depth - 1, by omega⟩
    rw [hdp, readLoop_plain (hplain none) hread] at hsd
    exact Out.ok.inj hsd
  obtain ⟨T, g1, g2⟩ := C75_armored n e.z _ (hplain (some (.new, false, c))) [] (by simp)
    (by
      rintro fmt part alg x hx hx2
      obtain ⟨rfl, rfl, rfl⟩ : fmt = .new ∧ part = false ∧ alg = c := by simpa [eq_comm] using hx
      obtain rfl := Out.ok.inj (hpk.symm.trans hx2)
      exact ⟨rfl, hcar⟩)
    (by
      rintro fmt part alg x hx hx2
      obtain ⟨rfl, rfl, rfl⟩ : fmt = .new ∧ part = false ∧ alg = c := by simpa [eq_comm] using hx
      rw [Msg.raw, hpk, Out.ok_bind] at hx2
      dsimp only at hx2
      rw [k1, Out.ok_bind, k3] at hx2
      obtain rfl := Out.ok.inj hx2
      exact hcar2)
  have g2 := g2 [10] (e'.depth - 2) (Or.inr rfl)
  rw [show e'.depth - 2 + 2 = e'.depth by omega] at g2
  obtain ⟨hkind, hid⟩ := hsig.pubId
  have hid' := hid.trans hkid
  rw [if_neg hc0, armorOf, if_pos rfl, same.rawE, g1] at ht'
  obtain rfl := Out.ok.inj ht'
  subst hfin
  rw [← same.readE', ← same.z] at g2
  refine ⟨⟨id, hid', (C56_verify_file e' l' hl' hd' pname mname hw' _).mpr
    ⟨pf, _, hs', pub, _, .yes, id, hpf, hsf, hkey, g2, ?_, Verdict.noConfusion, by rw [same.cr]; exact hid', rfl⟩⟩, o, s, g2⟩
  rw [same.cr, same.rawE', ← same.rawE, same.z, same.readE', ← same.readE]
  rw [verifyBinary_comp _ _ _ _ _ _ _ none]
  exact hyes

end OpenPGP.Cli
