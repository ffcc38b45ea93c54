import Verif.Lemmas.Printed
import Verif.Props.C56
import Verif.Props.C27
import Verif.Props.C35

/-!
# C57: what one command prints, another one reads

Two runs of the tool, possibly on different machines: files, time and random numbers of the second may differ from those of the first. Both have
the same hashes and ciphers. Signatures embedded in signatures are bounded by `n` levels, as in C10.
-/
namespace OpenPGP.Cli
open OpenPGP OpenPGP.Cli.Module Commands Rfc

/-- The same library. -/
structure SameLib (n : Nat) (e e' : Env (SigAt n)) : Prop where
  rawE : e.rawE = rawAt n
  readE : e.readE = readSigAt n
  rawE' : e'.rawE = rawAt n
  readE' : e'.readE = readSigAt n
  cr : e'.cr = e.cr
  z : e'.z = e.z

private theorem armor_of {m : Module} {l : Line} {p : Parsed} (ht : Told m l p) (hm : m.flags.lookup (ascii "-a") = some true) (ha : ¬ l.has (ascii "-a")) :
    p.flag "-a" = .ok true := by
  have := ht.flag _ _ hm
  rw [if_neg ha] at this
  exact flag_ok this

/-- `extract-public SECRET-KEY` prints a key file that is read as the public part of the key, with its armor headers. -/
theorem C57_extract_public (n : Nat) (e : Env (SigAt n)) (hraw : e.rawE = rawAt n) (hread : e.readE = readSigAt n) (l : Line)
    (hl : l.fits (extractPublic e).opts (extractPublic e).flags) (hd : [45, 45] ∉ l.verbatim.getD []) (ha : ¬ l.has (ascii "-a"))
    (name f : Bytes) (hw : l.words.take 1 = [name]) (hf : e.files name = some f) (hs : List (Bytes × Bytes)) (pri pub : KeyObj (SigAt n))
    (hk : keyOf e.readE f = .ok (hs, pri)) (hsec : pri.kind = .sec) (hpub : pri.getPublic = .ok pub) (hkind : pub.kind = .pub)
    (hmean : pub.meaningful = .ok true) (hh : ∀ h ∈ hs, goodHeader h) (hp : placed n 0 pub.packets) (hne : pub.packets ≠ []) :
    ∃ out, main (ordered e) (ascii "extract-public" :: l.spell) = .ok ⟨0, out⟩ ∧ keyOf e.readE out = .ok (hs, pub) := by
  obtain ⟨p, ht, hr⟩ := C56_command e (extractPublic e) (by simp [ordered]) l hl hd (show 1 ≤ _ from words_le hw rfl)
  have a0 : p.arg "private-key" = .ok name := arg_ok ((ht.word 0 (show 0 < 1 by decide)).trans (words_get hw 0 (by decide)))
  have a1 : p.flag "-a" = .ok true := armor_of ht (show List.lookup _ [_] = _ by decide +kernel) ha
  obtain ⟨t, h1, h2⟩ := key_printed n hs pub (Or.inl hkind) hmean hh hp hne
  refine ⟨t ++ [10], ((hr ⟨0, _⟩).trans ends_iff).mpr ?_, by rw [hread]; exact h2⟩
  simp only [extractPublic, a0, Out.ok_bind, hf, hk, hsec, ne_eq, not_true_eq_false, if_false, hpub, a1, armorOf, if_true, hraw, h1, ends_printed]

/-- What the signing commands have read before they sign. -/
structure Signer (n : Nat) (e : Env (SigAt n)) (l : Line) (kname pass : Bytes) (a : SignArgs (SigAt n)) (t : Tag5) (pub : KeyObj (SigAt n)) : Prop where
  key : ∃ kf hs, e.files kname = some kf ∧ keyOf e.readE kf = .ok (hs, a.pri)
  pass : a.pass = pass
  version : a.version = 4
  hash : hashNumbers.lookup ((l.values (ascii "-h")).getLast?.getD (ascii "SHA1")) = some a.hash
  can : ∃ nums, CanSign e.cr a [] t nums
  small : SmallKey t.key
  pub : a.pri.getPublic = .ok pub

theorem hashNumbers_known {name : Bytes} {h : UInt8} (hn : hashNumbers.lookup name = some h) : (hashLen h).isSome := by
  have key : ∀ l : List (Bytes × UInt8), (∀ x ∈ l, (hashLen x.2).isSome) → l.lookup name = some h → (hashLen h).isSome := by
    intro l
    induction l with
    | nil => intro _ h; cases h
    | cons x l ih =>
      intro hl h
      rw [List.lookup_cons] at h
      split at h
      · obtain rfl := Option.some.inj h; exact hl x (by simp)
      · exact ih (fun y hy => hl y (by simp [hy])) h
  exact key hashNumbers (by decide +kernel) hn

theorem Signer.pubId {n : Nat} {e : Env (SigAt n)} {l : Line} {kname pass : Bytes} {a : SignArgs (SigAt n)} {t : Tag5} {pub : KeyObj (SigAt n)}
    (h : Signer n e l kname pass a t pub) : pub.kind = .pub ∧ pub.keyid e.cr = t.key.keyid e.cr := by
  obtain ⟨nums, hc⟩ := h.can
  obtain ⟨pub', hpub', hk, -, -, -, hown⟩ := hc.public
  obtain rfl := Out.ok.inj (h.pub.symm.trans hpub')
  exact ⟨hk, hown rfl⟩

/-- The signing commands, once the files are read. -/
theorem signing_eq {n : Nat} {e : Env (SigAt n)} {l : Line} {kname pass : Bytes} {a : SignArgs (SigAt n)} {t : Tag5} {pub : KeyObj (SigAt n)}
    (h : Signer n e l kname pass a t pub) {m : Module} {p : Parsed} (ht : Told m l p) (hm : m.positional = [ascii "private-key", ascii "passphrase", ascii "file"])
    (ho : m.opts.lookup (ascii "-h") = some (ascii "SHA1")) {name f : Bytes} (hw : l.words.take 3 = [kname, pass, name]) (hf : e.files name = some f)
    (pre : Out Bool) (k : SignArgs (SigAt n) → Bytes → Bytes → Out Ran) :
    signing e p pre k = (pre >>= fun good => if !good then failed else k a name f) := by
  have hw3 : ∀ i (hi : i < 3), p.args ([ascii "private-key", ascii "passphrase", ascii "file"][i]'hi) = l.words[i]? := by
    intro i hi
    have := ht.word i (by rw [hm]; exact hi)
    simpa only [hm] using this
  have a0 : p.arg "private-key" = .ok kname := arg_ok ((hw3 0 (by decide)).trans (words_get hw 0 (by decide)))
  have a1 : p.arg "passphrase" = .ok pass := arg_ok ((hw3 1 (by decide)).trans (words_get hw 1 (by decide)))
  have a2 : p.arg "file" = .ok name := arg_ok ((hw3 2 (by decide)).trans (words_get hw 2 (by decide)))
  have a3 : p.arg "-h" = .ok ((l.values (ascii "-h")).getLast?.getD (ascii "SHA1")) := arg_ok (ht.opt _ _ ho)
  obtain ⟨kf, hs, h1, h2⟩ := h.key
  obtain ⟨pri, pass', v, hh⟩ := a
  obtain rfl : pass' = pass := h.pass
  obtain rfl : v = 4 := h.version
  have h3 := h.hash
  dsimp only at h2 h3
  simp only [signing, a0, Out.ok_bind, h1, a2, hf, a3, h3, h2, a1]

theorem signing_ends {n : Nat} {e : Env (SigAt n)} {l : Line} {kname pass : Bytes} {a : SignArgs (SigAt n)} {t : Tag5} {pub : KeyObj (SigAt n)}
    (h : Signer n e l kname pass a t pub) {m : Module} {p : Parsed} (ht : Told m l p) (hm : m.positional = [ascii "private-key", ascii "passphrase", ascii "file"])
    (ho : m.opts.lookup (ascii "-h") = some (ascii "SHA1")) {name f : Bytes} (hw : l.words.take 3 = [kname, pass, name]) (hf : e.files name = some f)
    {pre : Out Bool} {k : SignArgs (SigAt n) → Bytes → Bytes → Out Ran} {out : Bytes} (hr : Ends (signing e p pre k) out) :
    pre = .ok true ∧ Ends (k a name f) out := by
  rw [signing_eq h ht hm ho hw hf] at hr
  obtain ⟨good, hg, hr⟩ := ends_bind.mp hr
  obtain ⟨hg', hr⟩ := ends_if.mp hr
  exact ⟨by rw [hg]; cases good <;> simp_all, hr⟩

/-- `sign-detached-signature` and `verify-detached-signature`: the signature of a file is good for the file. -/
theorem C57_detached (n : Nat) (e e' : Env (SigAt n)) (same : SameLib n e e') (hcr : e.cr.Ok) (hnow : e.now < 2 ^ 32)
    (l : Line) (hl : l.fits (signDetachedSignature e).opts (signDetachedSignature e).flags) (hd : [45, 45] ∉ l.verbatim.getD []) (ha : ¬ l.has (ascii "-a"))
    (kname pass name f : Bytes) (hw : l.words.take 3 = [kname, pass, name]) (a : SignArgs (SigAt n)) (t : Tag5) (pub : KeyObj (SigAt n))
    (hsig : Signer n e l kname pass a t pub) (hrev : a.pri.revokeCheck = .ok .no) (hf : e.files name = some f)
    (out : Bytes) (hout : main (ordered e) (ascii "sign-detached-signature" :: l.spell) = .ok ⟨0, out⟩)
    (l' : Line) (hl' : l'.fits (verifyDetachedSignature e').opts (verifyDetachedSignature e').flags) (hd' : [45, 45] ∉ l'.verbatim.getD [])
    (pname name' sname : Bytes) (hw' : l'.words.take 3 = [pname, name', sname]) (pf : Bytes) (hpf : e'.files pname = some pf)
    (hs' : List (Bytes × Bytes)) (hkey : keyOf e'.readE pf = .ok (hs', pub)) (hf' : e'.files name' = some f) (hsf : e'.files sname = some out) :
    ∃ id, pub.keyid e.cr = .ok id ∧ main (ordered e') (ascii "verify-detached-signature" :: l'.spell) =
      .ok ⟨0, wording (ascii "File \"" ++ name' ++ ascii "\" was") (byKey pname id) .yes⟩ := by
  obtain ⟨p, ht, hr⟩ := C56_command e (signDetachedSignature e) (by simp [ordered]) l hl hd (show 3 ≤ _ from words_le hw rfl)
  have hr := ((hr ⟨0, out⟩).trans ends_iff).mp hout
  have a1 : p.flag "-a" = .ok true := armor_of ht (show List.lookup _ [_] = _ by decide +kernel) ha
  have hr : Ends (signing e p (.ok true) fun a _ f => do
      let s ← signDetached e.cr e.rawE a e.now e.nonces f
      if s.type ≠ 6 ∨ s.packets.length ≠ 1 then failed else printObj e p s) out := hr
  have ho : (signDetachedSignature e).opts.lookup (ascii "-h") = some (ascii "SHA1") := List.lookup_cons_self
  obtain ⟨-, hr⟩ := signing_ends hsig ht rfl ho hw hf hr
  obtain ⟨sig, hsd, hr⟩ := ends_bind.mp hr
  obtain ⟨-, hr⟩ := ends_if.mp hr
  obtain ⟨nums, hc⟩ := hsig.can
  have hv := hsig.version
  have hn := hashNumbers_known hsig.hash
  have hyes := C36_detached e.cr hcr e.rawE a t nums hc hv hn hrev e.now e.nonces f sig pub hsig.pub hsd
  obtain ⟨s, id, rfl, hkid, w1, w2, w3⟩ : ∃ s id, sig = detachedOf s ∧ t.key.keyid e.cr = .ok id ∧ wfSig (n + 1) s ∧ s.version = 4 ∧
      (Tag2.raw (rawAt n) s).length < 8128 := by
    obtain ⟨N, hn⟩ := Option.isSome_iff_exists.mp hn
    rw [signDetached, SignArgs.valid_of hc (Or.inr hv) hn, Out.ok_bind] at hsd
    simp only [Bool.not_true, Bool.false_eq_true, if_false] at hsd
    rw [hc.signerOf, Out.ok_bind] at hsd
    dsimp only at hsd
    rw [hrev, Out.ok_bind] at hsd
    dsimp only at hsd
    obtain ⟨kid, hkid, hsd⟩ := Out.bind_eq_ok.mp hsd
    obtain ⟨r, hr', hsd⟩ := Out.bind_eq_ok.mp hsd
    obtain ⟨_, _, _, rfl, _⟩ := goodDocument_of_makeSig hcr hc hsig.pub hkid hv rfl rfl hr'
    rw [hv] at hr' hsd
    exact ⟨_, kid, (Out.ok.inj hsd).symm, hkid, made_wf hcr hc hsig.small hkid hnow hr'⟩
  obtain ⟨t', g1, g2⟩ := detached_printed n s w1 w2 w3
  rw [printObj, a1, Out.ok_bind, armorOf, if_pos rfl, same.rawE, g1, Out.ok_bind, ends_printed] at hr
  subst hr
  obtain ⟨hkind, hid⟩ := hsig.pubId
  have hid' := hid.trans hkid
  refine ⟨id, hid', (C56_verify_detached e' l' hl' hd' pname name' sname hw' _).mpr
    ⟨pf, f, _, hs', pub, detachedOf s, .yes, id, hpf, hf', hsf, hkey, by rw [same.readE']; exact g2, ?_, Verdict.noConfusion, by rw [same.cr]; exact hid', rfl⟩⟩
  rw [same.cr, same.rawE', ← same.rawE]
  exact hyes

/-- `sign-timestamp` and `verify-timestamp`: the signature is good, and says the time that was asked for. -/
theorem C57_timestamp (n : Nat) (e e' : Env (SigAt n)) (same : SameLib n e e') (hcr : e.cr.Ok)
    (l : Line) (hl : l.fits (Commands.signTimestamp e).opts (Commands.signTimestamp e).flags) (hd : [45, 45] ∉ l.verbatim.getD []) (ha : ¬ l.has (ascii "-a"))
    (kname pass : Bytes) (time : Nat) (htime : time < 2 ^ 32) (hw : l.words.take 3 = [kname, pass, decimal time]) (a : SignArgs (SigAt n)) (t : Tag5)
    (pub : KeyObj (SigAt n)) (hsig : Signer n e l kname pass a t pub)
    (out : Bytes) (hout : main (ordered e) (ascii "sign-timestamp" :: l.spell) = .ok ⟨0, out⟩)
    (l' : Line) (hl' : l'.fits (Commands.verifyTimestamp e').opts (Commands.verifyTimestamp e').flags) (hd' : [45, 45] ∉ l'.verbatim.getD [])
    (pname sname : Bytes) (hw' : l'.words.take 2 = [pname, sname]) (pf : Bytes) (hpf : e'.files pname = some pf)
    (hs' : List (Bytes × Bytes)) (hkey : keyOf e'.readE pf = .ok (hs', pub)) (hsf : e'.files sname = some out) :
    (∃ id, pub.keyid e.cr = .ok id ∧ main (ordered e') (ascii "verify-timestamp" :: l'.spell) =
      .ok ⟨0, wording (ascii "Timestamp signature in \"" ++ sname ++ ascii "\" was") (byKey pname id) .yes⟩) ∧
    ∃ s : Tag2 (SigAt n), detachedFrom e'.readE out = .ok (detachedOf s) ∧ s.type = 0x40 ∧ s.hashed = [⟨false, .sigTime time⟩] := by
  obtain ⟨p, ht, hr⟩ := C56_command e (Commands.signTimestamp e) (by simp [ordered]) l hl hd (show 3 ≤ _ from words_le hw rfl)
  have hr := ((hr ⟨0, out⟩).trans ends_iff).mp hout
  have a1 : p.flag "-a" = .ok true := armor_of ht (show List.lookup _ [_] = _ by decide +kernel) ha
  have b0 : p.arg "signer-key" = .ok kname := arg_ok ((ht.word 0 (show 0 < 3 by decide)).trans (words_get hw 0 (by decide)))
  have b1 : p.arg "passphrase" = .ok pass := arg_ok ((ht.word 1 (show 1 < 3 by decide)).trans (words_get hw 1 (by decide)))
  have b2 : p.arg "seconds-since-epoch" = .ok (decimal time) := arg_ok ((ht.word 2 (show 2 < 3 by decide)).trans (words_get hw 2 (by decide)))
  have b3 : p.arg "-h" = .ok ((l.values (ascii "-h")).getLast?.getD (ascii "SHA1")) := arg_ok (ht.opt _ _ (List.lookup_cons_self))
  obtain ⟨nums, hc⟩ := hsig.can
  have hv := hsig.version
  have hn := hashNumbers_known hsig.hash
  obtain ⟨hkind, hid⟩ := hsig.pubId
  have hpub := hsig.pub
  have hsmall := hsig.small
  obtain ⟨kf, hs, k1, k2⟩ := hsig.key
  have hh := hsig.hash
  obtain ⟨pri, pass', v, hash⟩ := a
  obtain rfl : pass' = pass := hsig.pass
  obtain rfl : v = 4 := hv
  have hlk : readUnsigned 32 (decimal time) = some time := by rw [C56_number, if_pos htime]
  dsimp only at k2 hh
  simp only [Commands.signTimestamp, b0, b1, b2, b3, Out.ok_bind, k1, hlk, hh, k2] at hr
  obtain ⟨sig, hsd, hr⟩ := ends_bind.mp hr
  obtain ⟨-, hr⟩ := ends_if.mp hr
  have hyes := (C36_timestamp e.cr hcr e.rawE _ t nums hc rfl hn e.now e.nonces time sig pub hpub hsd).1
  obtain ⟨s, id, rfl, hkid, hty, hha, w1, w2, w3⟩ : ∃ s id, sig = detachedOf s ∧ t.key.keyid e.cr = .ok id ∧ s.type = 0x40 ∧ s.hashed = [⟨false, .sigTime time⟩] ∧
      wfSig (n + 1) s ∧ s.version = 4 ∧ (Tag2.raw (rawAt n) s).length < 8128 := by
    obtain ⟨N, hn⟩ := Option.isSome_iff_exists.mp hn
    rw [OpenPGP.signTimestamp, SignArgs.valid_of hc (Or.inr rfl) hn, Out.ok_bind] at hsd
    simp only [Bool.not_true, Bool.false_eq_true, if_false] at hsd
    rw [hc.signerOf, Out.ok_bind] at hsd
    dsimp only at hsd
    obtain ⟨kid, hkid, hsd⟩ := Out.bind_eq_ok.mp hsd
    obtain ⟨r, hr', hsd⟩ := Out.bind_eq_ok.mp hsd
    obtain ⟨_, _, _, rfl, _⟩ := goodDocument_of_makeSig hcr hc hpub hkid rfl rfl rfl hr'
    refine ⟨_, kid, (Out.ok.inj hsd).symm, hkid, rfl, rfl, made_wf hcr hc hsmall hkid htime hr'⟩
  obtain ⟨t', g1, g2⟩ := detached_printed n s w1 w2 w3
  rw [printObj, a1, Out.ok_bind, armorOf, if_pos rfl, same.rawE, g1, Out.ok_bind, ends_printed] at hr
  subst hr
  have hid' := hid.trans hkid
  rw [← same.readE'] at g2
  refine ⟨⟨id, hid', (C56_verify_timestamp e' l' hl' hd' pname sname hw' _).mpr
    ⟨pf, _, hs', pub, detachedOf s, .yes, id, hpf, hsf, hkey, g2, ?_, Verdict.noConfusion, by rw [same.cr]; exact hid', rfl⟩⟩, s, g2, hty, hha⟩
  rw [same.cr, same.rawE', ← same.rawE]
  exact hyes

/-- `sign-cleartext-signature` and `verify-cleartext-signature`: the message is good, for texts whose last line is not blank and whose lines end with
no other white space than spaces and tabs, or a carriage return (C35). -/
theorem C57_cleartext (n : Nat) (e e' : Env (SigAt n)) (same : SameLib n e e') (hcr : e.cr.Ok) (hnow : e.now < 2 ^ 32)
    (l : Line) (hl : l.fits (signCleartextSignature e).opts (signCleartextSignature e).flags) (hd : [45, 45] ∉ l.verbatim.getD [])
    (kname pass name f : Bytes) (hw : l.words.take 3 = [kname, pass, name]) (a : SignArgs (SigAt n)) (t : Tag5) (pub : KeyObj (SigAt n))
    (hsig : Signer n e l kname pass a t pub) (hf : e.files name = some f) (hlast : ∀ x, (getlines f).getLast? = some x → rtrim x ≠ [])
    (hends : ∀ x ∈ getlines f, rtrim x = stripLine x ∨ x = rtrim x ++ [13])
    (out : Bytes) (hout : main (ordered e) (ascii "sign-cleartext-signature" :: l.spell) = .ok ⟨0, out⟩)
    (l' : Line) (hl' : l'.fits (verifyCleartextSignature e').opts (verifyCleartextSignature e').flags) (hd' : [45, 45] ∉ l'.verbatim.getD [])
    (pname sname : Bytes) (hw' : l'.words.take 2 = [pname, sname]) (pf : Bytes) (hpf : e'.files pname = some pf)
    (hs' : List (Bytes × Bytes)) (hkey : keyOf e'.readE pf = .ok (hs', pub)) (hsf : e'.files sname = some out) :
    (∃ id, pub.keyid e.cr = .ok id ∧ main (ordered e') (ascii "verify-cleartext-signature" :: l'.spell) =
      .ok ⟨0, wording (ascii "This message was") (byKey pname id) .yes⟩) ∧
    ∃ m : Cleartext (Pkt (SigAt n)), cleartextOf (Pkt.parse e'.readE) out = .ok m ∧ getlines m.message = (getlines f).map rtrim := by
  obtain ⟨p, ht, hr⟩ := C56_command e (signCleartextSignature e) (by simp [ordered]) l hl hd (show 3 ≤ _ from words_le hw rfl)
  have hr := ((hr ⟨0, out⟩).trans ends_iff).mp hout
  have hr : Ends (signing e p (.ok true) fun a _ f => do
      let c ← signCleartext e.cr e.rawE a e.now e.nonces f
      if c.sig.type ≠ 6 ∨ c.sig.packets.length ≠ 1 then failed
      else do
        let d ← writeRaw (Pkt.write e.rawE) c.sig.packets
        let t ← cleartextWrite c d
        printed t) out := hr
  have ho : (signCleartextSignature e).opts.lookup (ascii "-h") = some (ascii "SHA1") := List.lookup_cons_self
  obtain ⟨-, hr⟩ := signing_ends hsig ht rfl ho hw hf hr
  obtain ⟨c, hsd, hr⟩ := ends_bind.mp hr
  obtain ⟨-, hr⟩ := ends_if.mp hr
  obtain ⟨d, hd1, hr⟩ := ends_bind.mp hr
  obtain ⟨t', ht', hfin⟩ := ends_bind.mp hr
  rw [ends_printed] at hfin
  clear hr
  obtain ⟨nums, hc⟩ := hsig.can
  have hv := hsig.version
  have hn := hashNumbers_known hsig.hash
  have hyes := (C36_cleartext e.cr hcr e.rawE a t nums hc hv hn e.now e.nonces f c pub hsig.pub hsd).2
  obtain ⟨s, id, rfl, hkid, w1, w2, w3⟩ : ∃ s id, c = ⟨[(ascii "Hash", hashName a.hash)], f, detachedOf s⟩ ∧ t.key.keyid e.cr = .ok id ∧ wfSig (n + 1) s ∧
      s.version = 4 ∧ (Tag2.raw (rawAt n) s).length < 8128 := by
    obtain ⟨N, hn⟩ := Option.isSome_iff_exists.mp hn
    rw [signCleartext, SignArgs.valid_of hc (Or.inr hv) hn, Out.ok_bind] at hsd
    simp only [Bool.not_true, Bool.false_eq_true, if_false] at hsd
    rw [hc.signerOf, Out.ok_bind] at hsd
    dsimp only at hsd
    obtain ⟨kid, hkid, hsd⟩ := Out.bind_eq_ok.mp hsd
    obtain ⟨r, hr', hsd⟩ := Out.bind_eq_ok.mp hsd
    obtain ⟨_, _, _, rfl, _⟩ := goodDocument_of_makeSig hcr hc hsig.pub hkid hv rfl rfl hr'
    rw [hv] at hr' hsd
    exact ⟨_, kid, (Out.ok.inj hsd).symm, hkid, made_wf hcr hc hsig.small hkid hnow hr'⟩
  obtain ⟨hkind, hid⟩ := hsig.pubId
  have hid' := hid.trans hkid
  have hp : placed n 0 (detachedOf s).packets :=
    ⟨_, rfl, ⟨by simp [validTag, Body.tag], rfl, by simp only [readableLen]; omega⟩, rfl, ⟨w1, w2⟩, trivial⟩
  obtain ⟨d', g1, g2, g3⟩ := placed_loop n _ 0 hp
  rw [same.rawE] at hd1
  obtain rfl := Out.ok.inj (hd1.symm.trans g1)
  have hne : d ≠ [] := by
    rintro rfl
    simp [detachedOf] at g2
  have hread : readRaw (Pkt.parse (readSigAt n)) d = .ok (detachedOf s).packets := by
    rw [readRaw]
    exact g3 _ _ (Nat.zero_le _) rfl (Nat.lt_succ_of_le g2)
  have hhn : ∀ h ∈ [(ascii "Hash", hashName a.hash)], goodHeader h := hashHeader_good hn
  obtain ⟨o, h1, h2⟩ := C35_roundtrip_lf (Pkt.parse (readSigAt n)) ⟨[(ascii "Hash", hashName a.hash)], f, detachedOf s⟩ d hhn rfl versionCc_good
    (show ∀ h ∈ versionCc, _ by decide +kernel) hne hread
  obtain rfl := Out.ok.inj (ht'.symm.trans h1)
  subst hfin
  set m : Cleartext (Pkt (SigAt n)) := ⟨[(ascii "Hash", hashName a.hash)], joinLines (dropBlank ((getlines f).map rtrim)), detachedOf s⟩ with hm
  have hof : cleartextOf (Pkt.parse e'.readE) (t' ++ [10]) = .ok m := by
    rw [cleartextOf, same.readE', h2, Out.ok_bind]
    rfl
  refine ⟨⟨id, hid', (C56_verify_cleartext e' l' hl' hd' pname sname hw' _).mpr
    ⟨pf, _, hs', pub, m, .yes, id, hpf, hsf, hkey, hof, ?_, Verdict.noConfusion, by rw [same.cr]; exact hid', rfl⟩⟩, m, hof, C35_text f hlast⟩
  have hin : sign01Input e.rawE (dataToText m.message) = sign01Input e.rawE (dataToText f) := by
    funext x
    rw [sign01Input, sign01Input, show m.message = joinLines (dropBlank ((getlines f).map rtrim)) from rfl, C35_digest f hlast hends]
  rw [same.cr, same.rawE', ← same.rawE]
  rw [verifyCleartext] at hyes ⊢
  rw [hin]
  exact hyes

/-- `sign-file -c UNCOMPRESSED` and `verify-file`: the message is good, and holds the file and its name. Its literal packet must not have a length
that the library cannot read (C04). -/
theorem C57_file (n : Nat) (e e' : Env (SigAt n)) (same : SameLib n e e') (hcr : e.cr.Ok) (hnow : e.now < 2 ^ 32) (hdep : 0 < e'.depth)
    (l : Line) (hl : l.fits (signFile e).opts (signFile e).flags) (hd : [45, 45] ∉ l.verbatim.getD []) (ha : ¬ l.has (ascii "-a"))
    (hcomp : (l.values (ascii "-c")).getLast? = some (ascii "UNCOMPRESSED"))
    (kname pass name f : Bytes) (hw : l.words.take 3 = [kname, pass, name]) (a : SignArgs (SigAt n)) (t : Tag5) (pub : KeyObj (SigAt n))
    (hsig : Signer n e l kname pass a t pub) (hf : e.files name = some f) (hname : name.length < 256)
    (hlen : readableLen .new (6 + name.length + f.length))
    (out : Bytes) (hout : main (ordered e) (ascii "sign-file" :: l.spell) = .ok ⟨0, out⟩)
    (l' : Line) (hl' : l'.fits (verifyFile e').opts (verifyFile e').flags) (hd' : [45, 45] ∉ l'.verbatim.getD [])
    (pname mname : Bytes) (hw' : l'.words.take 2 = [pname, mname]) (pf : Bytes) (hpf : e'.files pname = some pf)
    (hs' : List (Bytes × Bytes)) (hkey : keyOf e'.readE pf = .ok (hs', pub)) (hsf : e'.files mname = some out) :
    (∃ id, pub.keyid e.cr = .ok id ∧ main (ordered e') (ascii "verify-file" :: l'.spell) =
      .ok ⟨0, wording (ascii "The data in \"" ++ mname ++ ascii "\" was") (byKey pname id) .yes⟩) ∧
    ∃ o s, Msg.ofString e'.z e'.readE e'.depth out =
      .ok ⟨none, [⟨.new, false, .onePass o⟩, ⟨.new, false, .literal ⟨0x62, name, e.now, f⟩⟩, ⟨.new, false, .sig s⟩]⟩ := by
  obtain ⟨p, ht, hr⟩ := C56_command e (signFile e) (by simp [ordered]) l hl hd (show 3 ≤ _ from words_le hw rfl)
  have hr := ((hr ⟨0, out⟩).trans ends_iff).mp hout
  have a1 : p.flag "-a" = .ok true := armor_of ht (show List.lookup _ [_] = _ by decide +kernel) ha
  have a2 : p.arg "-c" = .ok (ascii "UNCOMPRESSED") := by
    have := ht.opt (ascii "-c") (ascii "ZLIB") List.lookup_cons_self
    rw [hcomp] at this
    exact arg_ok this
  have hr : Ends (signing e p (do let c ← p.arg "-c"; return (compNumbers.lookup c).isSome) fun a name f => do
      let c ← p.arg "-c"
      match compNumbers.lookup c with
      | none => failed
      | some c => do
        let m ← signBinary e.cr e.z e.rawE e.readE e.depth a e.now e.nonces name f c
        let good ← m.meaningful
        if !good then failed
        else do
          let ar ← p.flag "-a"
          let t ← writeMsg e.z e.rawE (if c = 0 then versionCc else []) m (armorOf ar)
          printed t) out := hr
  have ho : (signFile e).opts.lookup (ascii "-h") = some (ascii "SHA1") := by
    show List.lookup _ [_, _] = _
    decide +kernel
  obtain ⟨-, hr⟩ := signing_ends hsig ht rfl ho hw hf hr
  have hcl : compNumbers.lookup (ascii "UNCOMPRESSED") = some 0 := by decide +kernel
  rw [a2, Out.ok_bind, hcl] at hr
  dsimp only at hr
  obtain ⟨m, hsd, hr⟩ := ends_bind.mp hr
  obtain ⟨good, hg, hr⟩ := ends_bind.mp hr
  obtain ⟨-, hr⟩ := ends_if.mp hr
  rw [a1, Out.ok_bind] at hr
  obtain ⟨t', ht', hfin⟩ := ends_bind.mp hr
  rw [ends_printed] at hfin
  clear hr
  obtain ⟨nums, hc⟩ := hsig.can
  have hv := hsig.version
  have hn := hashNumbers_known hsig.hash
  have hyes := (C36_binary e.cr hcr e.z e.rawE e.readE e.depth (e'.depth - 1) a [] t nums hc (Or.inr hv) hn e.now e.nonces name f m pub hsig.pub hsd).1
  rw [Nat.sub_add_cancel hdep] at hyes
  obtain ⟨s, o, id, rfl, ho3, ho8, hkid, w1, w2, w3⟩ : ∃ s o id, m = ⟨none, [⟨.new, false, .onePass o⟩, ⟨.new, false, .literal ⟨0x62, name, e.now, f⟩⟩,
      ⟨.new, false, .sig s⟩]⟩ ∧ o.version = 3 ∧ o.keyid.length = 8 ∧ t.key.keyid e.cr = .ok id ∧ wfSig (n + 1) s ∧
      s.version = 4 ∧ (Tag2.raw (rawAt n) s).length < 8128 := by
    obtain ⟨N, hn⟩ := Option.isSome_iff_exists.mp hn
    rw [signBinary, SignArgs.valid_of hc (Or.inr hv) hn, Out.ok_bind] at hsd
    simp only [Bool.not_true, Bool.false_eq_true, if_false] at hsd
    rw [hc.signerOf, Out.ok_bind] at hsd
    dsimp only at hsd
    obtain ⟨kid, hkid, hsd⟩ := Out.bind_eq_ok.mp hsd
    rw [Tag4.checkKeyid, if_neg (by simp [keyid_length e.cr hcr hkid]), Out.ok_bind] at hsd
    obtain ⟨r, hr', hsd⟩ := Out.bind_eq_ok.mp hsd
    obtain ⟨_, _, _, rfl, _⟩ := goodDocument_of_makeSig hcr hc hsig.pub hkid hv rfl rfl hr'
    dsimp only at hsd
    rw [compressSigned, if_pos rfl] at hsd
    rw [hv] at hr' hsd
    exact ⟨_, _, kid, (Out.ok.inj hsd).symm, rfl, keyid_length e.cr hcr hkid, hkid, made_wf hcr hc hsig.small hkid hnow hr'⟩
  obtain ⟨hkind, hid⟩ := hsig.pubId
  have hid' := hid.trans hkid
  have hp : placed n 0 ([⟨.new, false, .onePass o⟩, ⟨.new, false, .literal ⟨0x62, name, e.now, f⟩⟩, ⟨.new, false, .sig s⟩] : List (Pkt (SigAt n))) := by
    refine ⟨_, rfl, ⟨by simp [validTag, Body.tag], rfl, ?_⟩, rfl, ⟨ho3, ho8⟩, _, rfl, ⟨by simp [validTag, Body.tag], rfl, ?_⟩, rfl, ⟨hname, hnow⟩,
      _, rfl, ⟨by simp [validTag, Body.tag], rfl, by simp only [readableLen]; omega⟩, rfl, ⟨w1, w2⟩, trivial⟩
    · simp [readableLen, Tag4.raw, ho8]
    · have : (Tag11.raw ⟨0x62, name, e.now, f⟩).length = 6 + name.length + f.length := by
        simp [Tag11.raw]
        omega
      rw [this]
      exact hlen
  obtain ⟨T, g1, g2⟩ := message_printed n e'.z e'.depth versionCc versionCc_good _ hp (show messageMeaningful [4, 11, 2] = _ by decide)
    (by simp [Body.tag]) (by simp)
  rw [if_pos rfl, armorOf, if_pos rfl, ← same.z, same.rawE, g1] at ht'
  obtain rfl := Out.ok.inj ht'
  subst hfin
  rw [← same.readE'] at g2
  refine ⟨⟨id, hid', (C56_verify_file e' l' hl' hd' pname mname hw' _).mpr
    ⟨pf, _, hs', pub, _, .yes, id, hpf, hsf, hkey, g2, ?_, Verdict.noConfusion, by rw [same.cr]; exact hid', rfl⟩⟩, o, s, g2⟩
  rw [same.cr, same.rawE', ← same.rawE, same.z, same.readE', ← same.readE]
  exact hyes

end OpenPGP.Cli
