import Verif.Props.C57Demo
import Verif.Props.C57File

/-!
# The hypotheses of C57_file_compressed are met
-/
namespace OpenPGP.Cli
open OpenPGP OpenPGP.Cli.Module Commands Rfc

/-- The packets of the signed document. -/
def demoSigned : Out (Msg (SigAt 0) × Bytes) := do
  let m ← signBinary demo.cr demo.z demo.rawE demo.readE demo.depth demoArgs demo.now demo.nonces (ascii "doc") [1, 2, 3] 0
  let p ← writeRaw (Pkt.write (rawAt 0)) m.packets
  return (m, p)

theorem demo_carries (d : Bytes) (hd : d.length < 200) : Carries demo.z .new 2 d := by
  refine ⟨by decide, fun _ _ => ⟨0 :: d, rfl, by simp, rfl⟩, ?_⟩
  intro c hc
  have : c.length ≤ d.length + 1 := by
    unfold compress at hc
    split at hc
    · split at hc
      · obtain rfl := Out.ok.inj hc; simp
      · cases hc
    · obtain rfl := Out.ok.inj hc; simp
  simp only [readableLen]
  omega

/-- `sign-file sec "" doc > out`, then `verify-file pub out`; the message is compressed, as no option says otherwise. -/
example : ∃ out, main (ordered demo) [ascii "sign-file", ascii "sec", [], ascii "doc"] = .ok ⟨0, out⟩ ∧
    main (ordered (demoWith out)) [ascii "verify-file", ascii "pub", ascii "out"] =
      .ok ⟨0, ascii "The data in \"out\" was signed by \"pub\" (1717171717171717).\n"⟩ := by
  have hl : demoLine.fits (signFile demo).opts (signFile demo).flags := demo_fits _ _ _ (by simp only [signFile]; decide +kernel)
  have hw : demoLine.words.take 3 = [ascii "sec", [], ascii "doc"] := by rw [demoLine, plainLine_words]; rfl
  have hd : [45, 45] ∉ demoLine.verbatim.getD [] := by simp [demoLine, plainLine]
  have ha : ¬ demoLine.has (ascii "-a") := by decide +kernel
  have hcomp : compNumbers.lookup ((demoLine.values (ascii "-c")).getLast?.getD (ascii "ZLIB")) = some 2 := by decide +kernel
  have hz : ∀ m0 packets, signBinary demo.cr demo.z demo.rawE demo.readE demo.depth demoArgs demo.now demo.nonces (ascii "doc") [1, 2, 3] 0 = .ok m0 →
      writeRaw (Pkt.write (rawAt 0)) m0.packets = .ok packets →
      Carries demo.z .new 2 packets ∧ ∀ d, compress demo.z 2 packets = .ok d → Carries demo.z .new 2 (packetOctets .new 8 (2 :: d)) ∧
        ∀ x ∈ getlines (packetOctets .new 8 (2 :: d)), ¬ ascii "-----BEGIN PGP " <+: rtrim x := by
    intro m0 packets h1 h2
    have hs : demoSigned = .ok (m0, packets) := by rw [demoSigned, h1, Out.ok_bind, h2]; rfl
    have h : (match demoSigned with
      | .ok (_, p) => (match compress demo.z 2 p with
        | .ok d => decide (p.length < 100 ∧ (packetOctets .new 8 (2 :: d)).length < 150 ∧ ∀ x ∈ getlines (packetOctets .new 8 (2 :: d)), ¬ ascii "-----BEGIN PGP " <+: rtrim x)
        | _ => false)
      | _ => false) = true := by decide +kernel
    rw [hs] at h
    dsimp only at h
    cases hc : compress demo.z 2 packets with
    | ok d =>
      rw [hc] at h
      obtain ⟨g1, g2, g3⟩ := of_decide_eq_true h
      refine ⟨demo_carries _ (by omega), ?_⟩
      rintro d' hd'
      obtain rfl := Out.ok.inj hd'
      exact ⟨demo_carries _ (by omega), g3⟩
    | _ => rw [hc] at h; cases h
  obtain ⟨out, hout⟩ : ∃ out, main (ordered demo) (ascii "sign-file" :: demoLine.spell) = .ok ⟨0, out⟩ := by
    obtain ⟨p, ht, hr⟩ := C56_command demo (signFile demo) (by simp [ordered]) demoLine hl hd (by rw [demoLine, plainLine_words]; exact Nat.le_refl 3)
    have ho : (signFile demo).opts.lookup (ascii "-h") = some (ascii "SHA1") := by
      show List.lookup _ [_, _] = _
      decide +kernel
    have hrun : ∀ q, (signFile demo).run q = signing demo q (do let c ← q.arg "-c"; return (compNumbers.lookup c).isSome) fun a name f => (do
      let c ← q.arg "-c"
      match compNumbers.lookup c with
      | none => failed
      | some c => do
        let m ← signBinary demo.cr demo.z demo.rawE demo.readE demo.depth a demo.now demo.nonces name f c
        let good ← m.meaningful
        if !good then failed
        else do
          let ar ← q.flag "-a"
          let t ← writeMsg demo.z demo.rawE (if c = 0 then versionCc else []) m (armorOf ar)
          printed t) := fun q => rfl
    have a1 : p.flag "-a" = .ok true := by
      have := ht.flag (ascii "-a") true (show List.lookup _ [_] = _ by decide +kernel)
      rw [if_neg ha] at this
      exact flag_ok this
    have a2 : p.arg "-c" = .ok ((demoLine.values (ascii "-c")).getLast?.getD (ascii "ZLIB")) := arg_ok (ht.opt (ascii "-c") (ascii "ZLIB") List.lookup_cons_self)
    obtain ⟨m, t, h1, h2, h3⟩ : ∃ m t, signBinary demo.cr demo.z demo.rawE demo.readE demo.depth demoArgs demo.now demo.nonces (ascii "doc") [1, 2, 3] 2 = .ok m ∧ m.meaningful = .ok true ∧
        writeMsg demo.z demo.rawE [] m .yes = .ok t := by
      have h : (match signBinary demo.cr demo.z demo.rawE demo.readE demo.depth demoArgs demo.now demo.nonces (ascii "doc") [1, 2, 3] 2 with
        | .ok m => decide (m.meaningful = .ok true) && (match writeMsg demo.z demo.rawE [] m .yes with | .ok _ => true | _ => false)
        | _ => false) = true := by decide +kernel
      generalize signBinary demo.cr demo.z demo.rawE demo.readE demo.depth demoArgs demo.now demo.nonces (ascii "doc") [1, 2, 3] 2 = o at h ⊢
      cases o with
      | ok m =>
        simp only [Bool.and_eq_true, decide_eq_true_eq] at h
        obtain ⟨g1, g2⟩ := h
        generalize hx : writeMsg demo.z demo.rawE [] m .yes = w at g2
        cases w with
        | ok t => exact ⟨m, t, rfl, g1, hx⟩
        | _ => cases g2
      | _ => cases h
    refine ⟨t ++ [10], ((hr ⟨0, _⟩).trans ends_iff).mpr ?_⟩
    rw [hrun, signing_eq demo_signer ht rfl ho hw (show demo.files (ascii "doc") = some [1, 2, 3] by decide +kernel), a2, Out.ok_bind, hcomp]
    simp only [Option.isSome_some, Out.pure_eq, Out.ok_bind, Bool.not_true, Bool.false_eq_true, if_false, a1, armorOf, if_true, hcomp, h1, h2]
    rw [if_neg (by decide), h3, Out.ok_bind, ends_printed]
  refine ⟨out, by rw [← plainLine_spell [ascii "sec", [], ascii "doc"]]; exact hout, ?_⟩
  have hl' : (plainLine [ascii "pub", ascii "out"]).fits (verifyFile (demoWith out)).opts (verifyFile (demoWith out)).flags := demo_fits _ [] [] (by decide +kernel)
  obtain ⟨⟨id, hid, h⟩, -⟩ := C57_file_compressed 0 demo (demoWith out) (demo_same out) demoCrypto_ok (by decide) (by decide) (show 2 ≤ 3 by decide) demoLine hl hd ha 2 hcomp (by decide)
    (ascii "sec") [] (ascii "doc") [1, 2, 3] hw demoArgs c36Dsa demoPub demo_signer (by decide +kernel) (by decide +kernel) (by unfold readableLen; decide +kernel) hz out hout _ hl'
    (by simp [plainLine]) (ascii "pub") (ascii "out") (by rw [plainLine_words]; rfl) demoPubFile (show demo.files (ascii "pub") = _ by decide +kernel) [] demo_pub.2 (demo_out out)
  obtain rfl : List.replicate 8 23 = id := Out.ok.inj ((show demoPub.keyid demo.cr = .ok (List.replicate 8 23) by decide +kernel).symm.trans hid)
  rw [plainLine_spell] at h
  rw [h]
  decide +kernel

end OpenPGP.Cli
