import Verif.Props.C57
import Verif.Lemmas.Generated

/-!
# C65: the command `generate-keypair`

What the command line asks for, the two files the command writes, and what the other commands read from them. Signatures embedded in signatures
are bounded by `n` levels, as in C10; generated keys have none.
-/
namespace OpenPGP.Cli
open OpenPGP OpenPGP.Cli.Module Commands Rfc
variable {E : Type}

/-! ## What the line asks for -/

/-- Names of algorithms, with the numbers RFC 4880 (9.1, 9.2, 9.4) and RFC 5581 give them. -/
def pkaNames : List (String × UInt8) := [("RSA_ENCRYPT_OR_SIGN", 1), ("RSA_ENCRYPT_ONLY", 2), ("RSA_SIGN_ONLY", 3), ("ELGAMAL", 16), ("DSA", 17)]
def symNames : List (String × UInt8) :=
  [("PLAINTEXT", 0), ("IDEA", 1), ("TRIPLEDES", 2), ("CAST5", 3), ("BLOWFISH", 4), ("AES128", 7), ("AES192", 8), ("AES256", 9), ("TWOFISH256", 10),
   ("CAMELLIA128", 11), ("CAMELLIA192", 12), ("CAMELLIA256", 13)]
def hashNames : List (String × UInt8) := [("MD5", 1), ("SHA1", 2), ("RIPEMD160", 3), ("SHA256", 8), ("SHA384", 9), ("SHA512", 10), ("SHA224", 11)]

/-- The text names the number. -/
def Names (table : List (String × UInt8)) (text : Bytes) (a : UInt8) : Prop := ∃ s, (s, a) ∈ table ∧ text = ascii s

/-- What the line says of an option: the last value given, or the default. -/
def said (l : Line) (name default : String) : Bytes := (l.values (ascii name)).getLast?.getD (ascii default)

/-- The line asks for this configuration. A size is given in decimal digits; one that does not fit into 64 bits stands for the greatest that
does. -/
structure Asked (l : Line) (c : KeyConfig) : Prop where
  pass : c.pass = said l "-p" ""
  pka : Names pkaNames (said l "--ppka" "RSA_ENCRYPT_OR_SIGN") c.pka
  bits : ∃ n, said l "--pkeysize" "2048" = decimal n ∧ c.bits = min n (2 ^ 64 - 1)
  sym : Names symNames (said l "--psym" "AES256") c.sym
  hash : Names hashNames (said l "--phash" "SHA1") c.hash
  user : ∃ sig, Names hashNames (said l "--psig" "SHA1") sig ∧ c.uids = [⟨said l "-u" "", said l "-c" "", said l "-e" "", sig⟩]
  sub : ∃ s, c.subkeys = [s] ∧ Names pkaNames (said l "--spka" "RSA_ENCRYPT_OR_SIGN") s.pka ∧
    (∃ n, said l "--skeysize" "2048" = decimal n ∧ s.bits = min n (2 ^ 64 - 1)) ∧ Names symNames (said l "--ssym" "AES256") s.sym ∧
    Names hashNames (said l "--shash" "SHA1") s.hash ∧ Names hashNames (said l "--ssig" "SHA1") s.sig

/-- The command, called with the line, ends like this and leaves these files. -/
def Did (e : Env E) (l : Line) (r : Ran) (files : List (Bytes × Bytes)) : Prop :=
  main (ordered e) (ascii "generate-keypair" :: l.spell) = .ok r ∧ keypairFiles e l.spell = .ok files

private theorem tables : pkaNumbers = pkaNames.map (fun x => (ascii x.1, x.2)) ∧ symNumbers = symNames.map (fun x => (ascii x.1, x.2)) ∧
    hashNumbers = hashNames.map (fun x => (ascii x.1, x.2)) := ⟨rfl, rfl, rfl⟩

private theorem lookup_names {table : List (String × UInt8)} (hnd : ((table.map fun x => (ascii x.1, x.2)).map Prod.fst).Nodup) (text : Bytes) (a : UInt8) :
    (table.map fun x => (ascii x.1, x.2)).lookup text = some a ↔ Names table text a := by
  have key : ∀ t : List (Bytes × UInt8), (t.map Prod.fst).Nodup → (t.lookup text = some a ↔ (text, a) ∈ t) := by
    intro t
    induction t with
    | nil => simp
    | cons x t ih =>
      intro hn
      rw [List.map_cons, List.nodup_cons] at hn
      rw [List.lookup_cons]
      by_cases h : text = x.1
      · subst h
        simp only [BEq.rfl, Option.some.injEq, List.mem_cons]
        constructor
        · rintro rfl; exact Or.inl rfl
        · rintro (h | h)
          · rw [← h]
          · exact absurd (List.mem_map_of_mem (f := Prod.fst) h) hn.1
      · have : (text == x.1) = false := by simpa using h
        simp only [this, List.mem_cons, ih hn.2]
        constructor
        · exact Or.inr
        · rintro (h' | h')
          · exact absurd (congrArg Prod.fst h') h
          · exact h'
  rw [key _ hnd, List.mem_map, Names]
  constructor
  · rintro ⟨⟨s, b⟩, h1, h2⟩
    simp only [Prod.mk.injEq] at h2
    exact ⟨s, by rw [← h2.2]; exact h1, h2.1.symm⟩
  · rintro ⟨s, h1, rfl⟩
    exact ⟨_, h1, rfl⟩

theorem pka_lookup (text : Bytes) (a : UInt8) : pkaNumbers.lookup text = some a ↔ Names pkaNames text a := by
  rw [tables.1]; exact lookup_names (by decide +kernel) text a

theorem sym_lookup (text : Bytes) (a : UInt8) : symNumbers.lookup text = some a ↔ Names symNames text a := by
  rw [tables.2.1]; exact lookup_names (by decide +kernel) text a

theorem hash_lookup (text : Bytes) (a : UInt8) : hashNumbers.lookup text = some a ↔ Names hashNames text a := by
  rw [tables.2.2]; exact lookup_names (by decide +kernel) text a

/-- A size in decimal digits is the size, up to what 64 bits hold. -/
theorem C65_size (n : Nat) : strtoul (decimal n) = min n (2 ^ 64 - 1) := by
  obtain ⟨c, cs, hc, h1, h2⟩ := decimal_head n
  obtain ⟨g1, g2, g3⟩ := not_special h1 h2
  have hd := readDigits_decimal n
  rw [hc] at hd
  simp only [strtoul, hc, List.dropWhile_cons, g1, Bool.false_eq_true, if_false, List.head?_cons, Option.some.injEq, g2, g3, or_self, hd]
  split <;> omega

/-- Disagreement: a size that is no number is not refused. Without digits in front it is zero, and a negative one is a large number. -/
theorem C65_size_fails (n : Nat) (hn : 0 < n) (h : n < 2 ^ 64) (text : Bytes) (ht : ∀ c, text.head? = some c → 58 ≤ c) :
    strtoul (45 :: decimal n) = 2 ^ 64 - n ∧ strtoul text = 0 := by
  constructor
  · have hd := readDigits_decimal n
    have e : isSpace 45 = false := by decide
    simp only [strtoul, List.dropWhile_cons, e, Bool.false_eq_true, if_false, List.head?_cons, true_or, if_true, List.drop_succ_cons, List.drop_zero, hd, if_pos h]
    rw [Nat.mod_eq_of_lt (by omega)]
  · cases text with
    | nil => rfl
    | cons c cs =>
      have hc := ht c rfl
      rw [UInt8.le_iff_toNat_le] at hc
      have e58 : (58 : UInt8).toNat = 58 := rfl
      have hne : ∀ k : UInt8, k.toNat < 58 → c ≠ k := by rintro k hk rfl; omega
      have hs : isSpace c = false := by
        have h4 : ¬ c ≤ 13 := by
          rw [UInt8.le_iff_toNat_le]
          have : (13 : UInt8).toNat = 13 := rfl
          omega
        simp [isSpace, hne 32 (by decide), h4]
      have hd : ¬ (48 ≤ c ∧ c ≤ 57) := by
        rw [UInt8.le_iff_toNat_le, UInt8.le_iff_toNat_le]
        have : (57 : UInt8).toNat = 57 := rfl
        omega
      simp only [strtoul, List.dropWhile_cons, hs, Bool.false_eq_true, if_false, List.head?_cons, Option.some.injEq, hne 45 (by decide), hne 43 (by decide), or_self,
        readDigits, if_neg hd]

/-- What the command's function sees. -/
private structure Seen (e : Env E) (l : Line) (p : Parsed) : Prop where
  parse : (Commands.generateKeypair e).parse l.spell = .ok p
  opt : ∀ name default : String, (Commands.generateKeypair e).opts.lookup (ascii name) = some (ascii default) → p.arg name = .ok (said l name default)
  flag : p.flag "-a" = .ok (!decide (l.has (ascii "-a")))
  none : ∀ name : String, ascii name ∉ (Commands.generateKeypair e).opts.map Prod.fst → p.arg name = .throw
  calls : main (ordered e) (ascii "generate-keypair" :: l.spell) = (Commands.generateKeypair e).call l.spell

private theorem seen (e : Env E) (l : Line) (hl : l.fits (Commands.generateKeypair e).opts (Commands.generateKeypair e).flags) (hd : [45, 45] ∉ l.verbatim.getD []) :
    ∃ p, Seen e l p := by
  obtain ⟨-, hn, ht⟩ := C56_table e
  have hm : Commands.generateKeypair e ∈ ordered e := by simp [ordered]
  obtain ⟨hc, hh⟩ := ht _ hm
  obtain ⟨p, h1, -, h3, h4, h5, -⟩ := C55_reads (Commands.generateKeypair e) hc l hl hd (Nat.zero_le _)
  refine ⟨p, h1, fun name default h => arg_ok (h3 _ _ h), ?_, fun name h => ?_, C55_dispatch (ordered e) hn _ hm hh _⟩
  · have := h4 (ascii "-a") true (show List.lookup _ [_] = _ by decide +kernel)
    refine flag_ok (this.trans ?_)
    by_cases h : l.has (ascii "-a") <;> simp [h]
  · have := h5 (ascii name) (by simp [Commands.generateKeypair]) h
    rw [Parsed.arg, this]

private theorem did {e : Env E} {l : Line} {p : Parsed} (hs : Seen e l p) {r : Ran} {files : List (Bytes × Bytes)} (hr : r.code = -1 ∨ r.code = 0)
    (h : keypairRun e p = .ok (r, files)) : Did e l r files := by
  constructor
  · rw [hs.calls, call, hs.parse]
    change (do let r ← (do let r ← keypairRun e p; pure r.1); if r.code = -1 then (pure ⟨-1, r.out⟩ : Out Ran) else pure ⟨0, r.out⟩) = _
    rw [h]
    obtain ⟨c, o⟩ := r
    rcases hr with rfl | rfl <;> rfl
  · rw [keypairFiles, hs.parse]
    simp only [h]
    rfl

private theorem threw {e : Env E} {l : Line} {p : Parsed} (hs : Seen e l p) (h : keypairRun e p = .throw) :
    main (ordered e) (ascii "generate-keypair" :: l.spell) = .throw ∧ keypairFiles e l.spell = .throw := by
  constructor
  · rw [hs.calls, call, hs.parse]
    change (do let r ← (do let r ← keypairRun e p; pure r.1); if r.code = -1 then (pure ⟨-1, r.out⟩ : Out Ran) else pure ⟨0, r.out⟩) = _
    rw [h]
    rfl
  · rw [keypairFiles, hs.parse]
    simp only [h]
    rfl

/-- All options. -/
private structure Args (l : Line) (p : Parsed) : Prop where
  o : p.arg "-o" = .ok (said l "-o" "key")
  pass : p.arg "-p" = .ok (said l "-p" "")
  u : p.arg "-u" = .ok (said l "-u" "")
  c : p.arg "-c" = .ok (said l "-c" "")
  e : p.arg "-e" = .ok (said l "-e" "")
  ppka : p.arg "--ppka" = .ok (said l "--ppka" "RSA_ENCRYPT_OR_SIGN")
  pbits : p.arg "--pkeysize" = .ok (said l "--pkeysize" "2048")
  psym : p.arg "--psym" = .ok (said l "--psym" "AES256")
  phash : p.arg "--phash" = .ok (said l "--phash" "SHA1")
  psig : p.arg "--psig" = .ok (said l "--psig" "SHA1")
  spka : p.arg "--spka" = .ok (said l "--spka" "RSA_ENCRYPT_OR_SIGN")
  sbits : p.arg "--skeysize" = .ok (said l "--skeysize" "2048")
  ssym : p.arg "--ssym" = .ok (said l "--ssym" "AES256")
  shash : p.arg "--shash" = .ok (said l "--shash" "SHA1")
  ssig : p.arg "--ssig" = .ok (said l "--ssig" "SHA1")

private theorem Seen.args {e : Env E} {l : Line} {p : Parsed} (h : Seen e l p) : Args l p := by
  constructor <;> exact h.opt _ _ (show List.lookup _ [_, _, _, _, _, _, _, _, _, _, _, _, _, _, _] = _ by decide +kernel)

private theorem config_ok {l : Line} {p : Parsed} (h : Args l p) {c : KeyConfig} (ha : Asked l c) : keypairConfig p = .ok (some c) := by
  obtain ⟨sig, hsig, hu⟩ := ha.user
  obtain ⟨s, hs, s1, ⟨m, hm, s2⟩, s3, s4, s5⟩ := ha.sub
  obtain ⟨n, hn, hb⟩ := ha.bits
  obtain ⟨pass, pka, bits, sym, hash, uids, subkeys⟩ := c
  obtain ⟨spka, sbits, ssym, shash, ssig⟩ := s
  have h1 := (pka_lookup _ _).mpr ha.pka
  have h2 := (sym_lookup _ _).mpr ha.sym
  have h3 := (hash_lookup _ _).mpr ha.hash
  have h4 := (hash_lookup _ _).mpr hsig
  have h5 := (pka_lookup _ _).mpr s1
  have h6 := (sym_lookup _ _).mpr s3
  have h7 := (hash_lookup _ _).mpr s4
  have h8 := (hash_lookup _ _).mpr s5
  have hp := ha.pass
  simp only at h1 h2 h3 h5 h6 h7 h8 hp hb s2 hu hs
  simp only [keypairConfig, h.ppka, h.psym, h.phash, h.psig, h.spka, h.ssym, h.shash, h.ssig, h.pass, h.pbits, h.sbits, h.u, h.c, h.e, Out.ok_bind, h1, h2, h3, h4,
    h5, h6, h7, h8, hn, hm, C65_size, hp, hb, s2, hu, hs]
  rfl

/-! ## The files -/

section
variable (n : Nat) (e : Env (SigAt n)) (hraw : e.rawE = rawAt n) (hread : e.readE = readSigAt n) (hcr : e.cr.Ok) (hnow : e.now < 2 ^ 32)
  (l : Line) (hl : l.fits (Commands.generateKeypair e).opts (Commands.generateKeypair e).flags) (hd : [45, 45] ∉ l.verbatim.getD [])
  (c : KeyConfig) (ha : Asked l c) (hr : e.genRand.Good c.pka c.bits) (hsubs : ∀ p ∈ c.subkeys.zip e.genSubs, p.2.1.Good p.1.pka p.1.bits)
  (k : KeyObj (SigAt n)) (hgen : generateKey e.cr e.rawE c e.now e.genRand e.genNonces e.genSubs = .ok k) (hne : k.packets ≠ [])
include hraw hread hcr hnow hl hd ha hr hsubs hgen hne

/-- In armor, which is the default: if a key comes out (C45 says when, and what it is) and both files can be written, the command says so, and the
two files are read as the public part of the key and the key. Packets of 8128 octets and more are left to C05. -/
theorem C65_written (hlen : ∀ p ∈ k.packets, ∀ r, p.body.raw (rawAt n) = .ok r → r.length < 8128) (hnot : ¬ l.has (ascii "-a"))
    (hw1 : e.canWrite (said l "-o" "key" ++ ascii ".public")) (hw2 : e.canWrite (said l "-o" "key" ++ ascii ".private")) :
    ∃ pub f g, k.getPublic = .ok pub ∧
      Did e l ⟨0, ascii "Keys written to '" ++ (said l "-o" "key" ++ ascii ".public") ++ ascii "' and '" ++ (said l "-o" "key" ++ ascii ".private") ++ ascii "'." ++ [10]⟩
        [(said l "-o" "key" ++ ascii ".public", f), (said l "-o" "key" ++ ascii ".private", g)] ∧
      keyOf e.readE f = .ok ([(ascii "Version", ascii "cc")], pub) ∧ keyOf e.readE g = .ok ([(ascii "Version", ascii "cc")], k) := by
  obtain ⟨p, hs⟩ := seen e l hl hd
  obtain ⟨hk, hm, primary, pri, sigs, sk, hg⟩ := C45_generated e.cr hcr e.rawE c e.now hnow e.genRand hr e.genNonces e.genSubs hsubs k hgen hne
  have hpub := getPublic_eq k hg.soundKey
  have hmp := meaningful_public hg.soundKey hm
  rw [hraw] at hg hgen
  obtain ⟨hp1, hp2⟩ := hg.placed hcr hnow hlen
  obtain ⟨f, f1, f2⟩ := key_armored n versionCc ⟨.pub, k.packets.map publicPkt⟩ (Or.inl rfl) hmp versionCc_good hp2 (by simpa using hne)
  obtain ⟨g, g1, g2⟩ := key_armored n versionCc k (Or.inr hk) hm versionCc_good hp1 hne
  refine ⟨_, f, g, hpub, did hs (Or.inr rfl) ?_, by rw [hread]; exact f2, by rw [hread]; exact g2⟩
  have hflag := hs.flag
  rw [show decide (l.has (ascii "-a")) = false by simpa using hnot] at hflag
  simp only [keypairRun, config_ok hs.args ha, Out.ok_bind, hgen, hm, Bool.not_true, Bool.false_eq_true, if_false, hpub, hs.args.o, hw1, hw2, hflag, armorOf,
    Bool.not_false, if_true, hraw, f1, g1]
  rfl

/-- With `-a` the files hold the packets alone. They are read back unless a line of them happens to look like the beginning of an armor. -/
theorem C65_binary (hlen : ∀ p ∈ k.packets, ∀ r, p.body.raw (rawAt n) = .ok r → r.length < 8128) (hnot : l.has (ascii "-a"))
    (hw1 : e.canWrite (said l "-o" "key" ++ ascii ".public")) (hw2 : e.canWrite (said l "-o" "key" ++ ascii ".private")) :
    ∃ pub f g, k.getPublic = .ok pub ∧
      Did e l ⟨0, ascii "Keys written to '" ++ (said l "-o" "key" ++ ascii ".public") ++ ascii "' and '" ++ (said l "-o" "key" ++ ascii ".private") ++ ascii "'." ++ [10]⟩
        [(said l "-o" "key" ++ ascii ".public", f), (said l "-o" "key" ++ ascii ".private", g)] ∧
      ((∀ t ∈ getlines f, ¬ ascii "-----BEGIN PGP " <+: rtrim t) → keyOf e.readE f = .ok ([], pub)) ∧
      ((∀ t ∈ getlines g, ¬ ascii "-----BEGIN PGP " <+: rtrim t) → keyOf e.readE g = .ok ([], k)) := by
  obtain ⟨p, hs⟩ := seen e l hl hd
  obtain ⟨hk, hm, primary, pri, sigs, sk, hg⟩ := C45_generated e.cr hcr e.rawE c e.now hnow e.genRand hr e.genNonces e.genSubs hsubs k hgen hne
  have hpub := getPublic_eq k hg.soundKey
  have hmp := meaningful_public hg.soundKey hm
  rw [hraw] at hg hgen
  obtain ⟨hp1, hp2⟩ := hg.placed hcr hnow hlen
  have h2 : 2 ≤ k.packets.length := by
    obtain ⟨u, us, hu⟩ := List.exists_cons_of_ne_nil hg.named
    have hu2 := hg.users
    rw [hu] at hu2
    obtain ⟨s, ss, -, -, rfl⟩ := List.forall₂_cons_left_iff.mp hu2
    rw [hg.packets, hu]
    simp
  obtain ⟨f, f1, f2⟩ := key_binary n versionCc ⟨.pub, k.packets.map publicPkt⟩ (Or.inl rfl) hmp hp2 (by simpa using h2) (publicPkt (newPkt (.secretKey primary)))
    (by rw [hg.packets]; rfl) rfl
  obtain ⟨g, g1, g2⟩ := key_binary n versionCc k (Or.inr hk) hm hp1 h2 (newPkt (.secretKey primary)) (by rw [hg.packets]; rfl) (by rw [hk]; rfl)
  refine ⟨_, f, g, hpub, did hs (Or.inr rfl) ?_, by rw [hread]; exact f2, by rw [hread]; exact g2⟩
  have hflag := hs.flag
  rw [show decide (l.has (ascii "-a")) = true by simpa using hnot] at hflag
  simp only [keypairRun, config_ok hs.args ha, Out.ok_bind, hgen, hm, Bool.not_true, Bool.false_eq_true, if_false, hpub, hs.args.o, hw1, hw2, hflag, armorOf,
    if_false, hraw, f1, g1]
  rfl

omit hread hraw in
/-- Disagreement: if the private key file cannot be written the command fails, and has emptied (or created) the public key file by then. -/
theorem C65_half_written_fails (hw1 : e.canWrite (said l "-o" "key" ++ ascii ".public")) (hw2 : ¬ e.canWrite (said l "-o" "key" ++ ascii ".private")) :
    Did e l ⟨-1, []⟩ [(said l "-o" "key" ++ ascii ".public", [])] := by
  obtain ⟨p, hs⟩ := seen e l hl hd
  obtain ⟨hk, hm, primary, pri, sigs, sk, hg⟩ := C45_generated e.cr hcr e.rawE c e.now hnow e.genRand hr e.genNonces e.genSubs hsubs k hgen hne
  refine did hs (Or.inl rfl) ?_
  simp only [keypairRun, config_ok hs.args ha, Out.ok_bind, hgen, hm, Bool.not_true, Bool.false_eq_true, if_false, getPublic_eq k hg.soundKey, hs.args.o, hw1, hw2,
    Bool.not_false, if_true]
  rfl

omit hread hraw in
/-- If the public key file cannot be written, nothing is. -/
theorem C65_not_written (hw1 : ¬ e.canWrite (said l "-o" "key" ++ ascii ".public")) : Did e l ⟨-1, []⟩ [] := by
  obtain ⟨p, hs⟩ := seen e l hl hd
  obtain ⟨hk, hm, primary, pri, sigs, sk, hg⟩ := C45_generated e.cr hcr e.rawE c e.now hnow e.genRand hr e.genNonces e.genSubs hsubs k hgen hne
  refine did hs (Or.inl rfl) ?_
  simp only [keypairRun, config_ok hs.args ha, Out.ok_bind, hgen, hm, Bool.not_true, Bool.false_eq_true, if_false, getPublic_eq k hg.soundKey, hs.args.o, hw1,
    Bool.not_false, if_true]
  rfl

omit hread hl hd ha in
/-- The public key verifies as certified by itself: by `verify-primary-key` on the file, in whatever run of the tool reads it. -/
theorem C65_verifies (e' : Env (SigAt n)) (same : SameLib n e e') (pub : KeyObj (SigAt n)) (hpub : k.getPublic = .ok pub) (l' : Line)
    (hl' : l'.fits (Commands.verifyPrimaryKey e').opts (Commands.verifyPrimaryKey e').flags) (hd' : [45, 45] ∉ l'.verbatim.getD [])
    (name f : Bytes) (hs : List (Bytes × Bytes)) (hw : l'.words.take 2 = [name, name]) (hf : e'.files name = some f) (hk : keyOf e'.readE f = .ok (hs, pub)) :
    ∃ kid, pub.keyid e'.cr = .ok kid ∧ main (ordered e') (ascii "verify-primary-key" :: l'.spell) =
      .ok ⟨0, ascii "Key in \"" ++ name ++ ascii "\" (" ++ hexlify kid ++ ascii ") was signed by key in \"" ++ name ++ ascii "\" (" ++ hexlify kid ++ ascii ").\n"⟩ := by
  obtain ⟨pub', h1, h2⟩ := C45_self_certified e.cr hcr e.rawE c e.now hnow e.genRand hr e.genNonces e.genSubs hsubs k hgen hne
  obtain rfl := Out.ok.inj (hpub.symm.trans h1)
  obtain ⟨kid, hkid⟩ : ∃ kid, pub.keyid e.cr = .ok kid := by
    rw [verifyPrimaryKey] at h2
    obtain ⟨a, -, h2⟩ := Out.bind_eq_ok.mp h2
    split at h2
    · exact absurd h2 (by simp)
    obtain ⟨b, -, h2⟩ := Out.bind_eq_ok.mp h2
    split at h2
    · exact absurd h2 (by simp)
    obtain ⟨kid, h3, -⟩ := Out.bind_eq_ok.mp h2
    exact ⟨kid, h3⟩
  rw [same.cr]
  refine ⟨kid, hkid, (C56_verify_primary e' l' hl' hd' name name hw _).mpr ⟨f, f, hs, pub, hs, pub, .yes, kid, kid, hf, hf, hk, hk, ?_, by simp, ?_, ?_, ?_⟩⟩
  · rw [same.cr, same.rawE', ← hraw]; exact h2
  · rw [same.cr]; exact hkid
  · rw [same.cr]; exact hkid
  · simp only [wording, List.append_assoc]
    have e1 : ascii ") was signed by key in \"" = ascii ") was" ++ ascii " signed by key in \"" := by decide +kernel
    have e2 : ascii ").\n" = ascii ")." ++ [10] := by decide +kernel
    rw [e1, e2]
    simp only [List.append_assoc]

omit hread hraw hl hd ha in
/-- The private key file and the passphrase serve to sign: what C57 says about the commands for signing applies. -/
theorem C65_signs (e' : Env (SigAt n)) (same : SameLib n e e') (pub : KeyObj (SigAt n)) (hpub : k.getPublic = .ok pub) (l' : Line)
    (name g : Bytes) (hs : List (Bytes × Bytes)) (hf : e'.files name = some g) (hk : keyOf e'.readE g = .ok (hs, k))
    (hash : UInt8) (hh : hashNumbers.lookup ((l'.values (ascii "-h")).getLast?.getD (ascii "SHA1")) = some hash)
    (hsm : ∀ p ∈ k.packets, ∀ kp, p.body.keyPart = some kp → SmallKey kp) :
    ∃ t, Signer n e' l' name c.pass ⟨k, c.pass, 4, hash⟩ t pub := by
  obtain ⟨primary, pri, hcan⟩ := C45_can_sign e.cr hcr e.rawE c e.now hnow e.genRand hr e.genNonces e.genSubs hsubs k hgen hne 4 hash
  refine ⟨primary, ⟨g, hs, hf, hk⟩, rfl, rfl, hh, ⟨pri, by rw [same.cr]; exact hcan⟩, ?_, hpub⟩
  obtain ⟨p, rest, hp, hb⟩ := hcan.packets
  exact hsm p (by rw [show k.packets = _ from hp]; simp) _ (keyPart_of_secretPart hb)

omit hread hraw hl hd hne in
/-- Disagreement: with `-p` the secret values of the subkey in the private key file cannot be recovered with the passphrase. -/
theorem C65_passphrase_fails (hp : said l "-p" "" ≠ []) (p : Pkt (SigAt n)) (t : Tag5) (hmem : p ∈ k.packets) (ht : p.body = .secretSubkey t) :
    ∃ pri, KeyPair t.key.pka t.key.mpi pri ∧ ∀ v, t.decryptSecretKeys e.cr (said l "-p" "") = .ok v → v ≠ pri := by
  rw [← ha.pass] at hp ⊢
  obtain ⟨pri, h1, -, h2⟩ := C45_subkey_passphrase_fails e.cr hcr e.rawE c e.now hnow e.genRand hr e.genNonces e.genSubs hsubs k hgen hp p t hmem ht
  refine ⟨pri, h1, fun v hv h => ?_⟩
  obtain ⟨extra, h3, h4⟩ := h2 v hv
  rw [h] at h4
  exact h3 (by simpa using h4)

end

/-! ## No key -/

/-- If no key comes out, the command fails and writes nothing. -/
theorem C65_no_key (e : Env E) (l : Line) (hl : l.fits (Commands.generateKeypair e).opts (Commands.generateKeypair e).flags) (hd : [45, 45] ∉ l.verbatim.getD [])
    (c : KeyConfig) (ha : Asked l c) (k : KeyObj E) (hgen : generateKey e.cr e.rawE c e.now e.genRand e.genNonces e.genSubs = .ok k) (hk : k.packets = []) :
    Did e l ⟨-1, []⟩ [] := by
  obtain ⟨p, hs⟩ := seen e l hl hd
  have hm : k.meaningful = .ok false := by
    obtain ⟨kind, ps⟩ := k
    obtain rfl : ps = [] := hk
    cases kind <;> rfl
  refine did hs (Or.inl rfl) ?_
  simp only [keypairRun, config_ok hs.args ha, Out.ok_bind, hgen, hm, Bool.not_false, if_true]
  rfl

/-- A run that ends has generated something. -/
private theorem did_generated {e : Env E} {l : Line} (hl : l.fits (Commands.generateKeypair e).opts (Commands.generateKeypair e).flags)
    (hd : [45, 45] ∉ l.verbatim.getD []) {c : KeyConfig} (ha : Asked l c) {r : Ran} {files : List (Bytes × Bytes)} (h : Did e l r files) :
    ∃ k, generateKey e.cr e.rawE c e.now e.genRand e.genNonces e.genSubs = .ok k ∧ (k.packets = [] → r = ⟨-1, []⟩ ∧ files = []) := by
  obtain ⟨p, hs⟩ := seen e l hl hd
  have hf := h.2
  rw [keypairFiles, hs.parse] at hf
  obtain ⟨⟨r', files'⟩, hr, -⟩ := Out.bind_eq_ok.mp hf
  have hr2 := hr
  simp only [keypairRun, config_ok hs.args ha, Out.ok_bind] at hr2
  obtain ⟨k, hk, -⟩ := Out.bind_eq_ok.mp hr2
  refine ⟨k, hk, fun hkp => ?_⟩
  obtain ⟨h1, h2⟩ := C65_no_key e l hl hd c ha k hk hkp
  exact ⟨Out.ok.inj (h.1.symm.trans h1), Out.ok.inj (h.2.symm.trans h2)⟩

private theorem named {table : List (String × UInt8)} {numbers : List (Bytes × UInt8)} (hl : ∀ text a, numbers.lookup text = some a ↔ Names table text a) {text : Bytes} {a b : UInt8}
    (h : Names table text a) (hb : numbers.lookup text = some b) : a = b := by
  rw [← hl] at h
  exact Option.some.inj (h.symm.trans hb)

section
variable (e : Env E) (hcr : e.cr.Ok) (hnow : e.now < 2 ^ 32) (l : Line)
  (hl : l.fits (Commands.generateKeypair e).opts (Commands.generateKeypair e).flags) (hd : [45, 45] ∉ l.verbatim.getD [])
  (c : KeyConfig) (ha : Asked l c) (hr : e.genRand.Good c.pka c.bits) (hsubs : ∀ p ∈ c.subkeys.zip e.genSubs, p.2.1.Good p.1.pka p.1.bits)
  (r : Ran) (files : List (Bytes × Bytes)) (h : Did e l r files)
include hcr hnow hl hd ha hr hsubs h

/-- Disagreement: no key is ever generated for `--ppka RSA_SIGN_ONLY`, whose keys can sign; nor for those whose keys cannot. -/
theorem C65_primary_fails (hp : said l "--ppka" "RSA_ENCRYPT_OR_SIGN" = ascii "RSA_SIGN_ONLY" ∨ said l "--ppka" "RSA_ENCRYPT_OR_SIGN" = ascii "RSA_ENCRYPT_ONLY" ∨
      said l "--ppka" "RSA_ENCRYPT_OR_SIGN" = ascii "ELGAMAL") : r = ⟨-1, []⟩ ∧ files = [] := by
  obtain ⟨k, hk, hres⟩ := did_generated hl hd ha h
  refine hres ?_
  by_contra hne
  obtain ⟨h1, h2, -⟩ := (C45_returns_iff e.cr hcr e.rawE c e.now hnow e.genRand hr e.genNonces e.genSubs hsubs k hk).mp hne
  have h3 := (KeyConfig.valid_true h1).2
  have hpka := ha.pka
  rcases hp with hp | hp | hp <;> rw [hp] at hpka
  · exact h2 (named pka_lookup hpka (by decide +kernel))
  · rw [named pka_lookup hpka (b := 2) (by decide +kernel)] at h3; exact absurd h3 (by decide)
  · rw [named pka_lookup hpka (b := 16) (by decide +kernel)] at h3; exact absurd h3 (by decide)

/-- Disagreement: `--ppka DSA` fails with the default `--psig` (SHA1 is too short), and for the sizes 1024 and 3072 whatever the hash. -/
theorem C65_dsa_fails (hp : said l "--ppka" "RSA_ENCRYPT_OR_SIGN" = ascii "DSA")
    (hw : said l "--psig" "SHA1" = ascii "SHA1" ∨ said l "--pkeysize" "2048" = ascii "1024" ∨ said l "--pkeysize" "2048" = ascii "3072") : r = ⟨-1, []⟩ ∧ files = [] := by
  obtain ⟨k, hk, hres⟩ := did_generated hl hd ha h
  have hpka := ha.pka
  rw [hp] at hpka
  have h17 : c.pka = 17 := named pka_lookup hpka (by decide +kernel)
  have hbits : ∀ m, said l "--pkeysize" "2048" = decimal m → c.bits = min m (2 ^ 64 - 1) := by
    intro m hm
    obtain ⟨n, hn, hb⟩ := ha.bits
    rw [hb, ← C65_size, ← hn, hm, C65_size]
  refine hres ?_
  rcases hw with hw | hw
  · by_contra hne
    obtain ⟨h1, -⟩ := (C45_returns_iff e.cr hcr e.rawE c e.now hnow e.genRand hr e.genNonces e.genSubs hsubs k hk).mp hne
    obtain ⟨sig, hsig, hu⟩ := ha.user
    rw [hw] at hsig
    obtain rfl : sig = 2 := named hash_lookup hsig (by decide +kernel)
    rw [KeyConfig.valid, h17, hu] at h1
    split at h1
    · exact absurd h1 (by simp)
    split at h1
    · exact absurd h1 (by simp)
    split at h1
    · exact absurd h1 (by simp)
    split at h1
    · exact absurd h1 (by simp)
    split at h1
    · exact absurd h1 (by simp)
    rw [usersValid, if_neg (show ¬ (!hashNamed 2) = true by decide)] at h1
    exact absurd h1 (by simp [shortForDsa, hashLen, mapAt])
  · refine C45_dsa_size_fails e.cr hcr e.rawE c e.now hnow e.genRand hr e.genNonces e.genSubs hsubs k hk h17 ?_
    rcases hw with hw | hw
    · exact Or.inl (hbits 1024 (hw.trans (by simp [decimal]; decide +kernel)))
    · exact Or.inr (hbits 3072 (hw.trans (by simp [decimal]; decide +kernel)))

end

/-- Disagreement: a name of a public key algorithm that is not known ends the program with an exception (the message asks for an option that does
not exist), for the primary key or, if everything about that is in order, for the subkey. -/
theorem C65_unknown_pka_throws (e : Env E) (l : Line) (hl : l.fits (Commands.generateKeypair e).opts (Commands.generateKeypair e).flags)
    (hd : [45, 45] ∉ l.verbatim.getD [])
    (h : (∀ a, ¬ Names pkaNames (said l "--ppka" "RSA_ENCRYPT_OR_SIGN") a) ∨
      ((∃ a, Names pkaNames (said l "--ppka" "RSA_ENCRYPT_OR_SIGN") a) ∧ (∃ a, Names symNames (said l "--psym" "AES256") a) ∧
        (∃ a, Names hashNames (said l "--phash" "SHA1") a) ∧ (∃ a, Names hashNames (said l "--psig" "SHA1") a) ∧
        ∀ a, ¬ Names pkaNames (said l "--spka" "RSA_ENCRYPT_OR_SIGN") a)) :
    main (ordered e) (ascii "generate-keypair" :: l.spell) = .throw ∧ keypairFiles e l.spell = .throw := by
  obtain ⟨p, hs⟩ := seen e l hl hd
  refine threw hs ?_
  have hn : ∀ text, (∀ a, ¬ Names pkaNames text a) → pkaNumbers.lookup text = none := fun text h => by
    rw [Option.eq_none_iff_forall_ne_some]
    exact fun a ha => h a ((pka_lookup _ _).mp ha)
  have g1 := hs.none "--pka" (show _ ∉ List.map Prod.fst [_, _, _, _, _, _, _, _, _, _, _, _, _, _, _] by decide +kernel)
  have g2 := hs.none "--ska" (show _ ∉ List.map Prod.fst [_, _, _, _, _, _, _, _, _, _, _, _, _, _, _] by decide +kernel)
  have g := hs.args
  rcases h with h | ⟨⟨a, h1⟩, ⟨b, h2⟩, ⟨c, h3⟩, ⟨d, h4⟩, h⟩
  · simp only [keypairRun, keypairConfig, g.ppka, Out.ok_bind, hn _ h, g1]
    rfl
  · simp only [keypairRun, keypairConfig, g.ppka, g.psym, g.phash, g.psig, g.spka, Out.ok_bind, (pka_lookup _ _).mpr h1, (sym_lookup _ _).mpr h2, (hash_lookup _ _).mpr h3,
      (hash_lookup _ _).mpr h4, hn _ h, g2]
    rfl

/-- Any other name that is not known makes the command fail, before anything is generated or written. -/
theorem C65_unknown_name (e : Env E) (l : Line) (hl : l.fits (Commands.generateKeypair e).opts (Commands.generateKeypair e).flags)
    (hd : [45, 45] ∉ l.verbatim.getD []) (hp : ∃ a, Names pkaNames (said l "--ppka" "RSA_ENCRYPT_OR_SIGN") a)
    (h : (∀ a, ¬ Names symNames (said l "--psym" "AES256") a) ∨ (∀ a, ¬ Names hashNames (said l "--phash" "SHA1") a) ∨ (∀ a, ¬ Names hashNames (said l "--psig" "SHA1") a) ∨
      (∃ a, Names pkaNames (said l "--spka" "RSA_ENCRYPT_OR_SIGN") a) ∧ ((∀ a, ¬ Names symNames (said l "--ssym" "AES256") a) ∨
        (∀ a, ¬ Names hashNames (said l "--shash" "SHA1") a) ∨ ∀ a, ¬ Names hashNames (said l "--ssig" "SHA1") a)) :
    Did e l ⟨-1, []⟩ [] := by
  obtain ⟨p, hs⟩ := seen e l hl hd
  refine did hs (Or.inl rfl) ?_
  have g := hs.args
  have key : keypairConfig p = .ok none := by
    simp only [← pka_lookup, ← sym_lookup, ← hash_lookup] at hp h
    obtain ⟨a, hp⟩ := hp
    simp only [keypairConfig, g.ppka, g.psym, g.phash, g.psig, g.spka, g.ssym, g.shash, g.ssig, Out.ok_bind, hp]
    cases h1 : symNumbers.lookup (said l "--psym" "AES256") with
    | none => rfl
    | some b =>
    cases h2 : hashNumbers.lookup (said l "--phash" "SHA1") with
    | none => rfl
    | some b =>
    cases h3 : hashNumbers.lookup (said l "--psig" "SHA1") with
    | none => rfl
    | some b =>
    simp only [h1, h2, h3, Option.some.injEq, forall_eq', false_or] at h
    obtain ⟨⟨a', h4⟩, h⟩ := h
    simp only [h4]
    cases h5 : symNumbers.lookup (said l "--ssym" "AES256") with
    | none => rfl
    | some b =>
    cases h6 : hashNumbers.lookup (said l "--shash" "SHA1") with
    | none => rfl
    | some b =>
    cases h7 : hashNumbers.lookup (said l "--ssig" "SHA1") with
    | none => rfl
    | some b => simp [h5, h6, h7] at h
  simp only [keypairRun, key, Out.ok_bind]
  rfl

/-! ## Examples -/

/-- `-u Al --ppka DSA --psig SHA256 --spka ELGAMAL -o new`. -/
def c65Line : Line := ⟨[.opt (ascii "-u") (ascii "Al"), .opt (ascii "--ppka") (ascii "DSA"), .opt (ascii "--psig") (ascii "SHA256"),
  .opt (ascii "--spka") (ascii "ELGAMAL"), .opt (ascii "-o") (ascii "new")], none⟩

def c65Config : KeyConfig := ⟨[], 17, 2048, 9, 2, [⟨ascii "Al", [], [], 8⟩], [⟨16, 2048, 9, 2, 2⟩]⟩

private theorem decimal2048 : ascii "2048" = decimal 2048 := by simp [decimal]; decide +kernel

example : Asked c65Line c65Config where
  pass := by decide +kernel
  pka := ⟨"DSA", by decide, by decide +kernel⟩
  bits := ⟨2048, (show said c65Line "--pkeysize" "2048" = ascii "2048" by decide +kernel).trans decimal2048, rfl⟩
  sym := ⟨"AES256", by decide, by decide +kernel⟩
  hash := ⟨"SHA1", by decide, by decide +kernel⟩
  user := ⟨8, ⟨"SHA256", by decide, by decide +kernel⟩, by rw [c65Config]; simp only [List.cons.injEq, UserConfig.mk.injEq]; decide +kernel⟩
  sub := ⟨_, rfl, ⟨"ELGAMAL", by decide, by decide +kernel⟩, ⟨2048, (show said c65Line "--skeysize" "2048" = ascii "2048" by decide +kernel).trans decimal2048, rfl⟩,
    ⟨"AES256", by decide, by decide +kernel⟩, ⟨"SHA1", by decide, by decide +kernel⟩, ⟨"SHA1", by decide, by decide +kernel⟩⟩

example : c65Line.fits (Commands.generateKeypair demo).opts (Commands.generateKeypair demo).flags := by
  intro i hi
  simp only [c65Line, List.mem_cons, List.not_mem_nil, or_false] at hi
  rcases hi with rfl | rfl | rfl | rfl | rfl <;> exact ⟨by simp [Commands.generateKeypair], by decide +kernel⟩

private theorem ok_of {α : Type} {x : Out α} {P : α → Bool} (h : (match x with | .ok a => P a | _ => false) = true) : ∃ a, x = .ok a ∧ P a = true := by
  cases x <;> simp_all

/-- A key comes out for it, and its packets are short. -/
example : ∃ k, generateKey demo.cr demo.rawE c65Config demo.now demo.genRand demo.genNonces demo.genSubs = .ok k ∧
    (decide (k.packets.length = 5) && k.packets.all fun p => match p.body.raw (rawAt 0) with | .ok r => decide (r.length < 8128) | _ => true) = true :=
  ok_of (P := fun k : KeyObj (SigAt 0) => decide (k.packets.length = 5) && k.packets.all fun p => match p.body.raw (rawAt 0) with | .ok r => decide (r.length < 8128) | _ => true)
    (by decide +kernel)

example : demo.genRand.Good 17 2048 ∧ ∀ p ∈ c65Config.subkeys.zip demo.genSubs, p.2.1.Good p.1.pka p.1.bits := by
  refine ⟨c45_good 17 (Or.inr rfl), fun p hp => ?_⟩
  obtain rfl := List.mem_singleton.mp (show p ∈ [_] from hp)
  exact c45_good 16 (Or.inl rfl)

/-- The whole run, with a private key file that cannot be written: the public one is left empty. -/
example : keypairFiles demo (({ c65Line with items := c65Line.items ++ [.opt (ascii "-o") (ascii "closed")] } : Line).spell) = .ok [(ascii "closed.public", [])] := by
  decide +kernel

end OpenPGP.Cli
