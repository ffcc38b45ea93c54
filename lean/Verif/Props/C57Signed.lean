import Verif.Props.C57Crypt
import Verif.Props.C58

/-!
# C57: what is signed and encrypted by one command is decrypted and verified by another one
-/
namespace OpenPGP.Cli
open OpenPGP OpenPGP.Cli.Module Commands Rfc

/-- `encrypt-sym` with `--sign`: what the line says about the parameters. `kname` is the file of the signing key, `spass` its passphrase. -/
structure SymSignLine (l : Line) (a : EncArgs) (keyHash : UInt8) (kname spass : Bytes) : Prop where
  comp : compNumbers.lookup ((l.values (ascii "-c")).getLast?.getD (ascii "ZLIB")) = some a.comp
  sym : symNumbers.lookup ((l.values (ascii "--sym")).getLast?.getD (ascii "AES256")) = some a.sym
  keyHash : hashNumbers.lookup ((l.values (ascii "--khash")).getLast?.getD (ascii "SHA1")) = some keyHash
  hash : hashNumbers.lookup ((l.values (ascii "--shash")).getLast?.getD (ascii "SHA1")) = some a.hash
  mdc : a.mdc = if l.has (ascii "--mdc") then false else true
  sign : (l.values (ascii "--sign")).getLast?.getD [] = kname
  named : kname ≠ []
  pass : (l.values (ascii "-p")).getLast?.getD [] = spass
  armor : ¬ l.has (ascii "-a")

/-- The line the decrypting commands print about the signature, with the line feed they end with. -/
def signedLine (pname id : Bytes) : Bytes := ascii "Message was signed by \"" ++ pname ++ ascii "\" (" ++ hexlify id ++ ascii ").\n\n"

theorem signedLine_eq (clear pname id : Bytes) : clear ++ ascii "Message was" ++ notUnless .yes ++ ascii " signed by \"" ++ pname ++ ascii "\" (" ++ hexlify id ++
    ascii ").\n" ++ [10] = clear ++ signedLine pname id := by
  have h1 : ascii "Message was signed by \"" = ascii "Message was" ++ ascii " signed by \"" := by decide +kernel
  have h2 : ascii ").\n\n" = ascii ").\n" ++ [10] := by decide +kernel
  rw [signedLine, h1, h2, notUnless, if_pos rfl]
  simp only [List.append_assoc, List.nil_append]

/-- `encrypt-sym --sign KEY -p PASS` and `decrypt-sym -s PUB`: the file is printed, and that it was signed by the key. -/
theorem C57_sym_signed (n : Nat) (e e' : Env (SigAt n)) (same : SameLib n e e') (hcr : e.cr.Ok) (hdep : 0 < e.depth) (l : Line)
    (hl : l.fits (Commands.encryptSym e).opts (Commands.encryptSym e).flags) (hd : [45, 45] ∉ l.verbatim.getD [])
    (name pass f : Bytes) (hw : l.words.take 2 = [name, pass]) (hf : e.files name = some f) (a : EncArgs) (ha : a.filename = name ∧ a.data = f)
    (kh : UInt8) (kname spass : Bytes) (hopt : SymSignLine l a kh kname spass) (k bs : Nat) (hu : a.Usable k bs)
    (kf : Bytes) (hkf : e.files kname = some kf) (hs : List (Bytes × Bytes)) (key pub : KeyObj (SigAt n)) (hkey : keyOf e.readE kf = .ok (hs, key))
    (hsec : key.kind = .sec) (m0 : Msg (SigAt n)) (hsd : SignedData n e.toWorld a key spass pub m0)
    (hsalt : e.salt.length = 8) (hrand : e.rand.length = bs)
    (hlen : ∀ m d, encryptSymS e.toWorld a (some (key, spass)) pass kh = .ok m → firstEncrypted m.packets = some (if a.mdc then 18 else 9, d) →
      readableLen .new (d.length + if a.mdc then 1 else 0))
    (hdep' : 2 ≤ e'.depth) (l' : Line) (hl' : l'.fits (Commands.decryptSym e').opts (Commands.decryptSym e').flags) (hd' : [45, 45] ∉ l'.verbatim.getD [])
    (mname : Bytes) (hw' : l'.words.take 2 = [mname, pass]) (pname : Bytes) (hpn : pname ≠ []) (hsopt : (l'.values (ascii "-s")).getLast?.getD [] = pname)
    (pf : Bytes) (hpf : e'.files pname = some pf) (hs' : List (Bytes × Bytes)) (hpkey : keyOf e'.readE pf = .ok (hs', pub)) (hpub : pub.kind = .pub)
    (id : Bytes) (hid : pub.keyid e.cr = .ok id) :
    ∃ out, main (ordered e) (ascii "encrypt-sym" :: l.spell) = .ok ⟨0, out⟩ ∧
      (e'.files mname = some out → main (ordered e') (ascii "decrypt-sym" :: l'.spell) = .ok ⟨0, f ++ ascii "\n\n" ++ signedLine pname id⟩) := by
  obtain ⟨p, ht, hr⟩ := C56_command e (Commands.encryptSym e) (by simp [ordered]) l hl hd (show 2 ≤ _ from words_le hw rfl)
  have b0 : p.arg "file" = .ok name := arg_ok ((ht.word 0 (show 0 < 2 by decide)).trans (words_get hw 0 (by decide)))
  have b1 : p.arg "passphrase" = .ok pass := arg_ok ((ht.word 1 (show 1 < 2 by decide)).trans (words_get hw 1 (by decide)))
  have b2 : p.arg "-c" = .ok _ := arg_ok (ht.opt _ _ (show List.lookup _ [_, _, _, _, _, _] = some (ascii "ZLIB") by decide +kernel))
  have b3 : p.arg "--sym" = .ok _ := arg_ok (ht.opt _ _ (show List.lookup _ [_, _, _, _, _, _] = some (ascii "AES256") by decide +kernel))
  have b4 : p.arg "--khash" = .ok _ := arg_ok (ht.opt _ _ (show List.lookup _ [_, _, _, _, _, _] = some (ascii "SHA1") by decide +kernel))
  have b5 : p.arg "--shash" = .ok _ := arg_ok (ht.opt _ _ (show List.lookup _ [_, _, _, _, _, _] = some (ascii "SHA1") by decide +kernel))
  have b6 : p.arg "--sign" = .ok _ := arg_ok (ht.opt _ _ (show List.lookup _ [_, _, _, _, _, _] = some [] by decide +kernel))
  have b7 : p.flag "-a" = .ok _ := flag_ok (ht.flag _ _ (show List.lookup _ [_, _] = some true by decide +kernel))
  have b8 : p.flag "--mdc" = .ok _ := flag_ok (ht.flag _ _ (show List.lookup _ [_, _] = some true by decide +kernel))
  have b9 : p.arg "-p" = .ok _ := arg_ok (ht.opt _ _ (show List.lookup _ [_, _, _, _, _, _] = some [] by decide +kernel))
  rw [if_neg hopt.armor] at b7
  rw [hopt.sign] at b6
  rw [hopt.pass] at b9
  rw [Bool.not_true, ← hopt.mdc] at b8
  obtain ⟨D, hD⟩ := Option.isSome_iff_exists.mp (hashNumbers_known hopt.keyHash)
  obtain ⟨d, m, r, h1, rfl, h3, ⟨⟨o, s, h4⟩, -, hyes⟩⟩ := C58_sym n e.toWorld same.rawE same.readE hcr hdep a k bs D hu key spass pub m0 hsd hsalt hrand kh hD pass
    e'.depth hdep'
  have hlen := hlen _ d h1 (by cases a.mdc <;> rfl)
  have hp : placed n 0 ([⟨.new, false, .skesk ⟨4, a.sym, some (.iterated kh e.salt 96), none⟩⟩, ⟨.new, false, if a.mdc then .seip 1 d else .symEnc d⟩] :
      List (Pkt (SigAt n))) := by
    refine ⟨_, rfl, ⟨by simp [validTag, Body.tag], rfl, ?_⟩, rfl, ⟨⟨_, rfl, hsalt⟩, by simp⟩, ?_⟩
    · simp [readableLen, Tag3.raw, S2K.raw, hsalt]
    · cases hm : a.mdc with
      | true =>
        rw [hm] at hlen
        refine ⟨1 :: d, rfl, ⟨by simp [validTag, Body.tag], rfl, ?_⟩, rfl, trivial, trivial⟩
        simpa using hlen
      | false =>
        rw [hm] at hlen
        refine ⟨d, rfl, ⟨by simp [validTag, Body.tag], rfl, ?_⟩, rfl, trivial, trivial⟩
        simpa using hlen
  obtain ⟨T, g1, g2⟩ := message_printed n e'.z e'.depth versionCc versionCc_good _ hp
    (by
      cases a.mdc with
      | true => exact show messageMeaningful [3, 18] = _ by decide
      | false => exact show messageMeaningful [3, 9] = _ by decide) (by cases a.mdc <;> simp [Body.tag]) (by simp)
  refine ⟨T ++ [10], ((hr ⟨0, _⟩).trans ends_iff).mpr ?_, fun hmf => ?_⟩
  · obtain ⟨fn, dat, sym, comp, mdc, hash⟩ := a
    obtain ⟨rfl, rfl⟩ := ha
    dsimp only at *
    simp only [Commands.encryptSym, b0, Out.ok_bind, hf, b2, b3, b4, b5, hopt.comp, hopt.sym, hopt.keyHash, hopt.hash, signerFrom, b6, if_neg hopt.named, hkf, hkey, hsec,
      ne_eq, not_true_eq_false, if_false, b9, Out.pure_eq, b8, b1, h1, b7, armorOf]
    rw [if_neg (by simp), if_pos trivial, ← same.z, same.rawE, g1, Out.ok_bind, ends_printed]
  · obtain ⟨p', ht', hr'⟩ := C56_command e' (Commands.decryptSym e') (by simp [ordered]) l' hl' hd' (show 2 ≤ _ from words_le hw' rfl)
    have c0 : p'.arg "file" = .ok mname := arg_ok ((ht'.word 0 (show 0 < 2 by decide)).trans (words_get hw' 0 (by decide)))
    have c1 : p'.arg "passphrase" = .ok pass := arg_ok ((ht'.word 1 (show 1 < 2 by decide)).trans (words_get hw' 1 (by decide)))
    have c2 : p'.arg "-s" = .ok _ := arg_ok (ht'.opt _ _ (show List.lookup _ [_] = some [] by decide +kernel))
    rw [hsopt] at c2
    refine ((hr' ⟨0, _⟩).trans ends_iff).mpr ?_
    rw [← same.readE'] at g2
    have h3' : OpenPGP.decryptSym e'.cr e'.z e'.readE e'.depth ⟨none, [⟨.new, false, .skesk ⟨4, a.sym, some (.iterated kh e.salt 96), none⟩⟩,
        ⟨.new, false, if a.mdc then .seip 1 d else .symEnc d⟩]⟩ pass = .ok r := by
      rw [same.cr, same.z, same.readE', ← same.readE]
      exact h3
    have hyes' : verifyBinary e'.cr e'.z e'.rawE e'.readE e'.depth pub r = .ok .yes := by
      rw [same.cr, same.z, same.readE', ← same.readE, same.rawE', ← same.rawE]
      exact hyes e'.depth (by omega)
    have hid' : pub.keyid e'.cr = .ok id := by rw [same.cr]; exact hid
    have hg : r.meaningful = .ok true := by rw [Msg.meaningful, h4]; show messageMeaningful [4, 11, 2] = _; decide
    simp only [Commands.decryptSym, c0, Out.ok_bind, hmf, checkerFrom, c2, if_neg hpn, hpf, hpkey, hpub, ne_eq, not_true_eq_false, and_false, if_false, Out.pure_eq, g2, c1,
      h3', hg]
    simp only [Out.ok_bind, Bool.not_true, Bool.false_eq_true, if_false, report, hyes', hid', h4, literals, ends_printed]
    rw [ha.2, List.append_nil, List.append_nil, signedLine_eq]

/-- `encrypt-pka` with `--sign`. -/
structure PkaSignLine (l : Line) (a : EncArgs) (kname spass : Bytes) : Prop where
  comp : compNumbers.lookup ((l.values (ascii "-c")).getLast?.getD (ascii "ZLIB")) = some a.comp
  sym : symNumbers.lookup ((l.values (ascii "--sym")).getLast?.getD (ascii "AES256")) = some a.sym
  hash : hashNumbers.lookup ((l.values (ascii "-h")).getLast?.getD (ascii "SHA1")) = some a.hash
  mdc : a.mdc = if l.has (ascii "--mdc") then false else true
  sign : (l.values (ascii "--sign")).getLast?.getD [] = kname
  named : kname ≠ []
  pass : (l.values (ascii "-p")).getLast?.getD [] = spass
  armor : ¬ l.has (ascii "-a")

/-- `encrypt-pka --sign KEY -p PASS` and `decrypt-pka -s PUB`. -/
theorem C57_pka_signed (n : Nat) (e e' : Env (SigAt n)) (same : SameLib n e e') (hcr : e.cr.Ok) (hdep : 0 < e.depth) (l : Line)
    (hl : l.fits (Commands.encryptPka e).opts (Commands.encryptPka e).flags) (hd : [45, 45] ∉ l.verbatim.getD [])
    (ename name f : Bytes) (hw : l.words.take 2 = [ename, name]) (hf : e.files name = some f) (a : EncArgs) (ha : a.filename = name ∧ a.data = f)
    (kname spass : Bytes) (hopt : PkaSignLine l a kname spass) (k bs : Nat) (hu : a.Usable k bs)
    (kf : Bytes) (hkf : e.files kname = some kf) (hs : List (Bytes × Bytes)) (key pub : KeyObj (SigAt n)) (hkey : keyOf e.readE kf = .ok (hs, key))
    (hkind : key.kind = .sec) (m0 : Msg (SigAt n)) (hsd : SignedData n e.toWorld a key spass pub m0)
    (sec epub : KeyObj (SigAt n)) (hsec : sec.kind = .sec) (hsound : sec.Sound)
    (hmean : sec.meaningful = .ok true) (hgp : sec.getPublic = .ok epub) (hpk : epub.kind = .pub) (hrev : epub.revokeCheck = .ok .no)
    (ef : Bytes) (hef : e.files ename = some ef) (hes : List (Bytes × Bytes)) (hekey : keyOf e.readE ef = .ok (hes, epub))
    (before after : List (Pkt (SigAt n))) (q : Pkt (SigAt n)) (t : Tag5) (hpk' : sec.packets = before ++ q :: after) (hq : q.body.secretPart = some t)
    (hbefore : ∀ x ∈ before, ∀ t', x.body.secretPart = some t' → (∃ i, t'.key.keyid e.cr = .ok i) ∧ canEncrypt t'.key.pka = false)
    (kid : Bytes) (hkid : t.key.keyid e.cr = .ok kid) (pass : Bytes) (pri : List Nat)
    (hpri : t.decryptSecretKeys e.cr pass = .ok pri) (hek : EncryptionKey t.key.pka t.key.mpi pri)
    (modulus : Nat) (hmod : t.key.mpi[0]? = some modulus) (hbig : k + 14 ≤ modulus.log2 / 8 + 1) (hsmall : modulus.log2 / 8 + 1 < 2 ^ 32)
    (hsk : e.sessionKey.length = k) (hrand : e.rand.length = bs) (hdraws : modulus.log2 / 8 + 1 ≤ (e.padding.filter (· ≠ 0)).length)
    (hplaced : ∀ m, encryptPkaS e.toWorld a (some (key, spass)) epub = .ok m → placed n 0 m.packets)
    (hdep' : 2 ≤ e'.depth) (l' : Line) (hl' : l'.fits (Commands.decryptPka e').opts (Commands.decryptPka e').flags) (hd' : [45, 45] ∉ l'.verbatim.getD [])
    (sname mname : Bytes) (hw' : l'.words.take 3 = [sname, pass, mname])
    (sf : Bytes) (hsf : e'.files sname = some sf) (hs' : List (Bytes × Bytes)) (hskey : keyOf e'.readE sf = .ok (hs', sec))
    (pname : Bytes) (hpn : pname ≠ []) (hsopt : (l'.values (ascii "-s")).getLast?.getD [] = pname)
    (pf : Bytes) (hpf : e'.files pname = some pf) (hps : List (Bytes × Bytes)) (hpkey : keyOf e'.readE pf = .ok (hps, pub))
    (id : Bytes) (hid : pub.keyid e.cr = .ok id) :
    ∃ out, main (ordered e) (ascii "encrypt-pka" :: l.spell) = .ok ⟨0, out⟩ ∧
      (e'.files mname = some out → main (ordered e') (ascii "decrypt-pka" :: l'.spell) = .ok ⟨0, f ++ ascii "\n" ++ signedLine pname id⟩) := by
  obtain ⟨p, ht, hr⟩ := C56_command e (Commands.encryptPka e) (by simp [ordered]) l hl hd (show 2 ≤ _ from words_le hw rfl)
  have b0 : p.arg "public-key" = .ok ename := arg_ok ((ht.word 0 (show 0 < 2 by decide)).trans (words_get hw 0 (by decide)))
  have b1 : p.arg "file" = .ok name := arg_ok ((ht.word 1 (show 1 < 2 by decide)).trans (words_get hw 1 (by decide)))
  have b2 : p.arg "-c" = .ok _ := arg_ok (ht.opt _ _ (show List.lookup _ [_, _, _, _, _] = some (ascii "ZLIB") by decide +kernel))
  have b3 : p.arg "--sym" = .ok _ := arg_ok (ht.opt _ _ (show List.lookup _ [_, _, _, _, _] = some (ascii "AES256") by decide +kernel))
  have b5 : p.arg "-h" = .ok _ := arg_ok (ht.opt _ _ (show List.lookup _ [_, _, _, _, _] = some (ascii "SHA1") by decide +kernel))
  have b6 : p.arg "--sign" = .ok _ := arg_ok (ht.opt _ _ (show List.lookup _ [_, _, _, _, _] = some [] by decide +kernel))
  have b7 : p.flag "-a" = .ok _ := flag_ok (ht.flag _ _ (show List.lookup _ [_, _] = some true by decide +kernel))
  have b8 : p.flag "--mdc" = .ok _ := flag_ok (ht.flag _ _ (show List.lookup _ [_, _] = some true by decide +kernel))
  have b9 : p.arg "-p" = .ok _ := arg_ok (ht.opt _ _ (show List.lookup _ [_, _, _, _, _] = some [] by decide +kernel))
  rw [if_neg hopt.armor] at b7
  rw [hopt.sign] at b6
  rw [hopt.pass] at b9
  rw [Bool.not_true, ← hopt.mdc] at b8
  obtain ⟨m, r, h1, hcomp, h2, h3, ⟨⟨o, s, h4⟩, -, hyes⟩⟩ := C58_pka n e.toWorld same.rawE same.readE hcr hdep a k bs hu key spass pub m0 hsd sec epub hsec hsound hmean hgp
    hrev before after q t hpk' hq hbefore kid hkid pass pri hpri hek modulus hmod hbig hsmall hsk hrand hdraws e'.depth hdep'
  have hp := hplaced m h1
  obtain ⟨comp, ps⟩ := m
  obtain rfl : comp = none := hcomp
  dsimp only at h2 hp
  have hgood : messageMeaningful (ps.map (·.body.tag)) = .ok true := by rw [h2]; cases a.mdc <;> decide
  obtain ⟨T, g1, g2⟩ := message_printed n e'.z e'.depth versionCc versionCc_good ps hp hgood
    (fun x hx => by
      have : x.body.tag ∈ ps.map (·.body.tag) := List.mem_map.mpr ⟨x, hx, rfl⟩
      rw [h2] at this
      cases hm : a.mdc <;> rw [hm] at this <;> simp at this <;> omega) (by rintro rfl; cases h2)
  refine ⟨T ++ [10], ((hr ⟨0, _⟩).trans ends_iff).mpr ?_, fun hmf => ?_⟩
  · obtain ⟨fn, dat, sym, comp, mdc, hash⟩ := a
    obtain ⟨rfl, rfl⟩ := ha
    dsimp only at *
    simp only [Commands.encryptPka, b0, Out.ok_bind, hef, b1, hf, b2, b3, b5, hopt.comp, hopt.sym, hopt.hash, signerFrom, b6, if_neg hopt.named, hkf, hkey, hkind, b9,
      Out.pure_eq, b8, hekey, hpk, ne_eq, not_true_eq_false, if_false, h1, Msg.meaningful, hgood, Bool.not_true, Bool.false_eq_true, b7, armorOf]
    rw [if_pos trivial, ← same.z, same.rawE, g1, Out.ok_bind, ends_printed]
  · obtain ⟨p', ht', hr'⟩ := C56_command e' (Commands.decryptPka e') (by simp [ordered]) l' hl' hd' (show 3 ≤ _ from words_le hw' rfl)
    have c0 : p'.arg "private-key" = .ok sname := arg_ok ((ht'.word 0 (show 0 < 3 by decide)).trans (words_get hw' 0 (by decide)))
    have c1 : p'.arg "passphrase" = .ok pass := arg_ok ((ht'.word 1 (show 1 < 3 by decide)).trans (words_get hw' 1 (by decide)))
    have c2 : p'.arg "file" = .ok mname := arg_ok ((ht'.word 2 (show 2 < 3 by decide)).trans (words_get hw' 2 (by decide)))
    have c3 : p'.arg "-s" = .ok _ := arg_ok (ht'.opt _ _ (show List.lookup _ [_] = some [] by decide +kernel))
    rw [hsopt] at c3
    refine ((hr' ⟨0, _⟩).trans ends_iff).mpr ?_
    rw [← same.readE'] at g2
    have h3' : OpenPGP.decryptPka e'.cr e'.z e'.readE e'.depth sec pass ⟨none, ps⟩ = .ok r := by
      rw [same.cr, same.z, same.readE', ← same.readE]
      exact h3
    have hyes' : verifyBinary e'.cr e'.z e'.rawE e'.readE e'.depth pub r = .ok .yes := by
      rw [same.cr, same.z, same.readE', ← same.readE, same.rawE', ← same.rawE]
      exact hyes e'.depth (by omega)
    have hid' : pub.keyid e'.cr = .ok id := by rw [same.cr]; exact hid
    have hg : r.meaningful = .ok true := by rw [Msg.meaningful, h4]; show messageMeaningful [4, 11, 2] = _; decide
    simp only [Commands.decryptPka, c0, Out.ok_bind, hsf, c2, hmf, checkerFrom, c3, if_neg hpn, hpf, hpkey, Bool.false_eq_true, false_and, if_false, Out.pure_eq, hskey, g2,
      c1, hsec, ne_eq, not_true_eq_false, h3', hg]
    simp only [Out.ok_bind, Bool.not_true, Bool.false_eq_true, if_false, report, hyes', hid', h4, literals, ends_printed]
    rw [ha.2, List.append_nil, signedLine_eq]

end OpenPGP.Cli
