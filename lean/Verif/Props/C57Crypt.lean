import Verif.Lemmas.CryptSigned
import Verif.Props.C57
import Verif.Props.C26

/-!
# C57: what is encrypted by one command is decrypted by another one
-/
namespace OpenPGP.Cli
open OpenPGP OpenPGP.Cli.Module Commands Rfc

/-- `encrypt-sym` without `--sign`: what the line says about the parameters. -/
structure SymLine (l : Line) (a : EncArgs) (keyHash : UInt8) : Prop where
  comp : compNumbers.lookup ((l.values (ascii "-c")).getLast?.getD (ascii "ZLIB")) = some a.comp
  sym : symNumbers.lookup ((l.values (ascii "--sym")).getLast?.getD (ascii "AES256")) = some a.sym
  keyHash : hashNumbers.lookup ((l.values (ascii "--khash")).getLast?.getD (ascii "SHA1")) = some keyHash
  hash : hashNumbers.lookup ((l.values (ascii "--shash")).getLast?.getD (ascii "SHA1")) = some a.hash
  mdc : a.mdc = if l.has (ascii "--mdc") then false else true
  nosign : (l.values (ascii "--sign")).getLast?.getD [] = []
  armor : ¬ l.has (ascii "-a")

/-- `encrypt-sym` writes a message that `decrypt-sym` decrypts with the same passphrase: it prints the file, and three line feeds. The compression must be one
that is undone (C54), and the packets must have lengths that the library can read (C04). -/
theorem C57_sym (n : Nat) (e e' : Env (SigAt n)) (same : SameLib n e e') (hcr : e.cr.Ok) (l : Line)
    (hl : l.fits (Commands.encryptSym e).opts (Commands.encryptSym e).flags) (hd : [45, 45] ∉ l.verbatim.getD [])
    (name pass f : Bytes) (hw : l.words.take 2 = [name, pass]) (hf : e.files name = some f) (a : EncArgs) (ha : a.filename = name ∧ a.data = f)
    (kh : UInt8) (hopt : SymLine l a kh) (hz : a.Undoes e.z) (hfit : a.Fits e.z) (k bs : Nat) (hu : a.Usable k bs)
    (hsalt : e.salt.length = 8) (hrand : e.rand.length = bs)
    (hlen : ∀ m d, OpenPGP.encryptSym e.cr e.z e.rawE a e.salt e.rand pass kh = .ok m → firstEncrypted m.packets = some (if a.mdc then 18 else 9, d) →
      readableLen .new (d.length + if a.mdc then 1 else 0))
    (hdep : 2 ≤ e'.depth) (l' : Line) (hl' : l'.fits (Commands.decryptSym e').opts (Commands.decryptSym e').flags) (hd' : [45, 45] ∉ l'.verbatim.getD [])
    (mname : Bytes) (hw' : l'.words.take 2 = [mname, pass]) (hnos : (l'.values (ascii "-s")).getLast?.getD [] = []) :
    ∃ out, main (ordered e) (ascii "encrypt-sym" :: l.spell) = .ok ⟨0, out⟩ ∧
      (e'.files mname = some out → main (ordered e') (ascii "decrypt-sym" :: l'.spell) = .ok ⟨0, f ++ ascii "\n\n\n"⟩) := by
  obtain ⟨p, ht, hr⟩ := C56_command e (Commands.encryptSym e) (by simp [ordered]) l hl hd (show 2 ≤ _ from words_le hw rfl)
  have b0 : p.arg "file" = .ok name := arg_ok ((ht.word 0 (show 0 < 2 by decide)).trans (words_get hw 0 (by decide)))
  have b1 : p.arg "passphrase" = .ok pass := arg_ok ((ht.word 1 (show 1 < 2 by decide)).trans (words_get hw 1 (by decide)))
  have b2 : p.arg "-c" = .ok _ := arg_ok (ht.opt _ _ (show List.lookup _ [_, _, _, _, _, _] = some (ascii "ZLIB") by decide +kernel))
  have b3 : p.arg "--sym" = .ok _ := arg_ok (ht.opt _ _ (show List.lookup _ [_, _, _, _, _, _] = some (ascii "AES256") by decide +kernel))
  have b4 : p.arg "--khash" = .ok _ := arg_ok (ht.opt _ _ (show List.lookup _ [_, _, _, _, _, _] = some (ascii "SHA1") by decide +kernel))
  have b5 : p.arg "--shash" = .ok _ := arg_ok (ht.opt _ _ (show List.lookup _ [_, _, _, _, _, _] = some (ascii "SHA1") by decide +kernel))
  have b6 : p.arg "--sign" = .ok _ := arg_ok (ht.opt _ _ (show List.lookup _ [_, _, _, _, _, _] = some [] by decide +kernel))
  have b7 : p.flag "-a" = .ok _ := flag_ok (ht.flag _ _ (show List.lookup _ [_, _] = some true by decide +kernel))
  have b8 : p.flag "--mdc" = .ok _ := flag_ok (ht.flag _ _ (show List.lookup _ [_, _] = some true by decide +kernel))
  rw [if_neg hopt.armor] at b7
  rw [hopt.nosign] at b6
  rw [Bool.not_true, ← hopt.mdc] at b8
  obtain ⟨D, hD⟩ := Option.isSome_iff_exists.mp (hashNumbers_known hopt.keyHash)
  obtain ⟨m, r, h1, h2, h3, h4, h5⟩ := C27_roundtrip_partial (E := SigAt n) hcr (rawAt n) (readSigAt n) a hz k bs D hu hfit e.salt e.rand pass hsalt hrand kh hD
    e'.depth hdep
  have hmne : m ≠ .empty := by rintro rfl; cases h2
  obtain ⟨d, rfl, -⟩ := encryptSym_shape h1 hmne
  rw [← same.rawE] at h1
  have hlen := hlen _ d h1 (by cases a.mdc <;> rfl)
  have hp : placed n 0 ([⟨.new, false, .skesk ⟨4, a.sym, some (.iterated kh e.salt 96), none⟩⟩, ⟨.new, false, if a.mdc then .seip 1 d else .symEnc d⟩] :
      List (Pkt (SigAt n))) := by
    refine ⟨_, rfl, ⟨by simp [validTag, Body.tag], rfl, ?_⟩, rfl, ⟨⟨_, rfl, hsalt⟩, by simp⟩, ?_⟩
    · simp [readableLen, Tag3.raw, S2K.raw, hsalt]
    · cases hm : a.mdc with
      | true =>
        rw [hm] at hlen
        refine ⟨1 :: d, rfl, ⟨by simp [validTag, Body.tag], rfl, ?_⟩, rfl, trivial, trivial⟩
        simpa using hlen
      | false =>
        rw [hm] at hlen
        refine ⟨d, rfl, ⟨by simp [validTag, Body.tag], rfl, ?_⟩, rfl, trivial, trivial⟩
        simpa using hlen
  obtain ⟨T, g1, g2⟩ := message_printed n e'.z e'.depth versionCc versionCc_good _ hp
    (by rw [show List.map (fun x : Pkt (SigAt n) => x.body.tag) _ = _ from h2]; cases a.mdc <;> decide)
    (by cases a.mdc <;> simp [Body.tag]) (by simp)
  refine ⟨T ++ [10], ((hr ⟨0, _⟩).trans ends_iff).mpr ?_, fun hmf => ?_⟩
  · obtain ⟨fn, dat, sym, comp, mdc, hash⟩ := a
    obtain ⟨rfl, rfl⟩ := ha
    dsimp only at *
    simp only [Commands.encryptSym, b0, Out.ok_bind, hf, b2, b3, b4, b5, hopt.comp, hopt.sym, hopt.keyHash, hopt.hash, signerFrom, b6, if_true, Out.pure_eq, b8, b1,
      encryptSymS_none, h1, b7, armorOf]
    rw [if_neg (by simp), ← same.z, same.rawE, g1, Out.ok_bind, ends_printed]
  · obtain ⟨p', ht', hr'⟩ := C56_command e' (Commands.decryptSym e') (by simp [ordered]) l' hl' hd' (show 2 ≤ _ from words_le hw' rfl)
    have c0 : p'.arg "file" = .ok mname := arg_ok ((ht'.word 0 (show 0 < 2 by decide)).trans (words_get hw' 0 (by decide)))
    have c1 : p'.arg "passphrase" = .ok pass := arg_ok ((ht'.word 1 (show 1 < 2 by decide)).trans (words_get hw' 1 (by decide)))
    have c2 : p'.arg "-s" = .ok _ := arg_ok (ht'.opt _ _ (show List.lookup _ [_] = some [] by decide +kernel))
    rw [hnos] at c2
    refine ((hr' ⟨0, _⟩).trans ends_iff).mpr ?_
    rw [← same.readE'] at g2
    rw [← same.readE', ← same.cr, ← same.z] at h3
    have hg : r.meaningful = .ok true := by rw [Msg.meaningful, h4]; show messageMeaningful [11] = _; decide
    simp only [Commands.decryptSym, c0, Out.ok_bind, hmf, checkerFrom, c2, if_true, Out.pure_eq, g2, c1, h3, hg]
    simp only [Out.ok_bind, Bool.not_true, Bool.false_eq_true, if_false, report, h4, listSigs, literals, ends_printed]
    rw [ha.2, show ascii "\n\n\n" = ascii "\n\n" ++ [10] by decide +kernel]
    simp only [List.append_nil, List.append_assoc]

/-- `encrypt-pka` without `--sign`: what the line says about the parameters. -/
structure PkaLine (l : Line) (a : EncArgs) : Prop where
  comp : compNumbers.lookup ((l.values (ascii "-c")).getLast?.getD (ascii "ZLIB")) = some a.comp
  sym : symNumbers.lookup ((l.values (ascii "--sym")).getLast?.getD (ascii "AES256")) = some a.sym
  hash : hashNumbers.lookup ((l.values (ascii "-h")).getLast?.getD (ascii "SHA1")) = some a.hash
  mdc : a.mdc = if l.has (ascii "--mdc") then false else true
  nosign : (l.values (ascii "--sign")).getLast?.getD [] = []
  armor : ¬ l.has (ascii "-a")

/-- `encrypt-pka` to the public part of a secret key writes a message that `decrypt-pka` decrypts with the secret key and its passphrase: it prints the file
and two line feeds. The conditions are those of C26, and that the packets of the message are read back (C06). -/
theorem C57_pka (n : Nat) (e e' : Env (SigAt n)) (same : SameLib n e e') (hcr : e.cr.Ok) (l : Line)
    (hl : l.fits (Commands.encryptPka e).opts (Commands.encryptPka e).flags) (hd : [45, 45] ∉ l.verbatim.getD [])
    (pname name f : Bytes) (hw : l.words.take 2 = [pname, name]) (hf : e.files name = some f) (a : EncArgs) (ha : a.filename = name ∧ a.data = f)
    (hopt : PkaLine l a) (hz : a.Undoes e.z) (hfit : a.Fits e.z) (k bs : Nat) (hu : a.Usable k bs)
    (sec pub : KeyObj (SigAt n)) (hsec : sec.kind = .sec) (hsound : sec.Sound)
    (hmean : sec.meaningful = .ok true) (hpub : sec.getPublic = .ok pub) (hpk : pub.kind = .pub) (hrev : pub.revokeCheck = .ok .no)
    (pf : Bytes) (hpf : e.files pname = some pf) (hs : List (Bytes × Bytes)) (hkey : keyOf e.readE pf = .ok (hs, pub))
    (before after : List (Pkt (SigAt n))) (q : Pkt (SigAt n)) (t : Tag5) (hpk' : sec.packets = before ++ q :: after) (hq : q.body.secretPart = some t)
    (hbefore : ∀ x ∈ before, ∀ t', x.body.secretPart = some t' → (∃ i, t'.key.keyid e.cr = .ok i) ∧ canEncrypt t'.key.pka = false)
    (kid : Bytes) (hkid : t.key.keyid e.cr = .ok kid) (pass : Bytes) (pri : List Nat)
    (hpri : t.decryptSecretKeys e.cr pass = .ok pri) (hek : EncryptionKey t.key.pka t.key.mpi pri)
    (modulus : Nat) (hmod : t.key.mpi[0]? = some modulus) (hbig : k + 14 ≤ modulus.log2 / 8 + 1) (hsmall : modulus.log2 / 8 + 1 < 2 ^ 32)
    (hsk : e.sessionKey.length = k) (hrand : e.rand.length = bs) (hdraws : modulus.log2 / 8 + 1 ≤ (e.padding.filter (· ≠ 0)).length)
    (hplaced : ∀ m, OpenPGP.encryptPka e.cr e.z e.rawE a pub e.sessionKey e.padding e.ephemeral e.rand = .ok m → placed n 0 m.packets)
    (hdep : 2 ≤ e'.depth) (l' : Line) (hl' : l'.fits (Commands.decryptPka e').opts (Commands.decryptPka e').flags) (hd' : [45, 45] ∉ l'.verbatim.getD [])
    (sname mname : Bytes) (hw' : l'.words.take 3 = [sname, pass, mname]) (hnos : (l'.values (ascii "-s")).getLast?.getD [] = [])
    (sf : Bytes) (hsf : e'.files sname = some sf) (hs' : List (Bytes × Bytes)) (hskey : keyOf e'.readE sf = .ok (hs', sec)) :
    ∃ out, main (ordered e) (ascii "encrypt-pka" :: l.spell) = .ok ⟨0, out⟩ ∧
      (e'.files mname = some out → main (ordered e') (ascii "decrypt-pka" :: l'.spell) = .ok ⟨0, f ++ ascii "\n\n"⟩) := by
  obtain ⟨p, ht, hr⟩ := C56_command e (Commands.encryptPka e) (by simp [ordered]) l hl hd (show 2 ≤ _ from words_le hw rfl)
  have b0 : p.arg "public-key" = .ok pname := arg_ok ((ht.word 0 (show 0 < 2 by decide)).trans (words_get hw 0 (by decide)))
  have b1 : p.arg "file" = .ok name := arg_ok ((ht.word 1 (show 1 < 2 by decide)).trans (words_get hw 1 (by decide)))
  have b2 : p.arg "-c" = .ok _ := arg_ok (ht.opt _ _ (show List.lookup _ [_, _, _, _, _] = some (ascii "ZLIB") by decide +kernel))
  have b3 : p.arg "--sym" = .ok _ := arg_ok (ht.opt _ _ (show List.lookup _ [_, _, _, _, _] = some (ascii "AES256") by decide +kernel))
  have b5 : p.arg "-h" = .ok _ := arg_ok (ht.opt _ _ (show List.lookup _ [_, _, _, _, _] = some (ascii "SHA1") by decide +kernel))
  have b6 : p.arg "--sign" = .ok _ := arg_ok (ht.opt _ _ (show List.lookup _ [_, _, _, _, _] = some [] by decide +kernel))
  have b7 : p.flag "-a" = .ok _ := flag_ok (ht.flag _ _ (show List.lookup _ [_, _] = some true by decide +kernel))
  have b8 : p.flag "--mdc" = .ok _ := flag_ok (ht.flag _ _ (show List.lookup _ [_, _] = some true by decide +kernel))
  rw [if_neg hopt.armor] at b7
  rw [hopt.nosign] at b6
  rw [Bool.not_true, ← hopt.mdc] at b8
  obtain ⟨m, r, h1, h2, h3, h4, h5⟩ := C26_message hcr e.rawE e'.readE a hz k bs hu hfit sec pub hsec hsound hmean hpub hrev before after q t hpk' hq hbefore hkid pass
    pri hpri hek hmod hbig hsmall e.sessionKey e.padding e.rand e.ephemeral hsk hrand hdraws e'.depth hdep
  have hcomp := encryptPka_comp h1
  have hp := hplaced m h1
  obtain ⟨comp, ps⟩ := m
  obtain rfl : comp = none := hcomp
  dsimp only at h2 hp
  have hgood : messageMeaningful (ps.map (·.body.tag)) = .ok true := by rw [h2]; cases a.mdc <;> decide
  obtain ⟨T, g1, g2⟩ := message_printed n e'.z e'.depth versionCc versionCc_good ps hp hgood
    (fun x hx => by
      have : x.body.tag ∈ ps.map (·.body.tag) := List.mem_map.mpr ⟨x, hx, rfl⟩
      rw [h2] at this
      cases hm : a.mdc <;> rw [hm] at this <;> simp at this <;> omega) (by rintro rfl; cases h2)
  refine ⟨T ++ [10], ((hr ⟨0, _⟩).trans ends_iff).mpr ?_, fun hmf => ?_⟩
  · obtain ⟨fn, dat, sym, comp, mdc, hash⟩ := a
    obtain ⟨rfl, rfl⟩ := ha
    dsimp only at *
    simp only [Commands.encryptPka, b0, Out.ok_bind, hpf, b1, hf, b2, b3, b5, hopt.comp, hopt.sym, hopt.hash, signerFrom, b6, if_true, Out.pure_eq, b8,
      hkey, hpk, ne_eq, not_true_eq_false, if_false, encryptPkaS_none, h1, Msg.meaningful, hgood, Bool.not_true, Bool.false_eq_true, b7, armorOf]
    rw [← same.z, same.rawE, g1, Out.ok_bind, ends_printed]
  · obtain ⟨p', ht', hr'⟩ := C56_command e' (Commands.decryptPka e') (by simp [ordered]) l' hl' hd' (show 3 ≤ _ from words_le hw' rfl)
    have c0 : p'.arg "private-key" = .ok sname := arg_ok ((ht'.word 0 (show 0 < 3 by decide)).trans (words_get hw' 0 (by decide)))
    have c1 : p'.arg "passphrase" = .ok pass := arg_ok ((ht'.word 1 (show 1 < 3 by decide)).trans (words_get hw' 1 (by decide)))
    have c2 : p'.arg "file" = .ok mname := arg_ok ((ht'.word 2 (show 2 < 3 by decide)).trans (words_get hw' 2 (by decide)))
    have c3 : p'.arg "-s" = .ok _ := arg_ok (ht'.opt _ _ (show List.lookup _ [_] = some [] by decide +kernel))
    rw [hnos] at c3
    refine ((hr' ⟨0, _⟩).trans ends_iff).mpr ?_
    rw [← same.readE'] at g2
    rw [← same.cr, ← same.z] at h3
    have hg : r.meaningful = .ok true := by rw [Msg.meaningful, h4]; show messageMeaningful [11] = _; decide
    simp only [Commands.decryptPka, c0, Out.ok_bind, hsf, c2, hmf, checkerFrom, c3, if_true, Out.pure_eq, hskey, g2, c1, hsec, ne_eq, not_true_eq_false, if_false, h3, hg]
    simp only [Out.ok_bind, Bool.not_true, Bool.false_eq_true, if_false, report, h4, listSigs, literals, ends_printed]
    rw [ha.2, show ascii "\n\n" = ascii "\n" ++ [10] by decide +kernel]
    simp only [List.append_nil, List.append_assoc]

end OpenPGP.Cli
