import Verif.Props.C59
import Verif.Props.C11
import Verif.Props.C20
import Verif.Lemmas.Cfb

/-!
# C59: `write(armor, &status, check_mpi)`
-/
namespace OpenPGP
open Rfc

variable {E : Type} {regexOk : Bytes → Bool} {validE : E → Out Status}

section
variable {rawE : E → Bytes} {check : Body E → Out Status}

theorem rawChecked_none (out : Bytes) (ps : List (Pkt E)) :
    rawChecked rawE check none out ps = (do let ws ← writeRaw (Pkt.write rawE) ps; return (none, out ++ ws)) := by
  induction ps generalizing out with
  | nil => simp [rawChecked, writeRaw]
  | cons p ps ih =>
    simp only [rawChecked, writeRaw, Out.bind_assoc', ih, Out.pure_eq, Out.ok_bind, List.append_assoc]

theorem rawChecked_good (st : Status) (out : Bytes) (ps : List (Pkt E)) (h : ∀ p ∈ ps, check p.body = .ok .success) :
    rawChecked rawE check (some st) out ps = (do let ws ← writeRaw (Pkt.write rawE) ps; return (some (if ps = [] then st else .success), out ++ ws)) := by
  induction ps generalizing out st with
  | nil => simp [rawChecked, writeRaw]
  | cons p ps ih =>
    simp only [rawChecked, writeRaw, h p List.mem_cons_self, Out.ok_bind, ne_eq, not_true_eq_false, if_false,
      ih .success _ fun q hq => h q (List.mem_cons_of_mem _ hq), Out.bind_assoc', Out.pure_eq, List.append_assoc, ite_self, reduceCtorEq]

theorem rawChecked_bad (st : Status) (out ws : Bytes) (ps qs : List (Pkt E)) (p : Pkt E) (h : ∀ p ∈ ps, check p.body = .ok .success)
    (hw : writeRaw (Pkt.write rawE) ps = .ok ws) {s : Status} (hs : check p.body = .ok s) (hne : s ≠ .success) :
    rawChecked rawE check (some st) out (ps ++ p :: qs) = .ok (some s, []) := by
  induction ps generalizing out st ws with
  | nil => simp [rawChecked, hs, hne]
  | cons q ps ih =>
    obtain ⟨w, h1, h2⟩ := Out.bind_eq_ok.mp hw
    obtain ⟨ws', h3, -⟩ := Out.bind_eq_ok.mp h2
    rw [List.cons_append, rawChecked, h q List.mem_cons_self, Out.ok_bind, if_neg (by simp), h1, Out.ok_bind]
    exact ih .success _ _ (fun x hx => h x (List.mem_cons_of_mem _ hx)) h3

/-- **No status, no check.** With a null pointer, `write` is the writing of the packets, valid or not. -/
theorem C59_unchecked (o : PgpObj (Pkt E)) (mode : ArmorMode) :
    writeChecked rawE check none o mode = (do let d ← writeRaw (Pkt.write rawE) o.packets; let t ← pgpWrite o mode d; return (none, t)) := by
  rw [writeChecked, rawChecked_none]
  simp only [Out.bind_assoc', Out.pure_eq, Out.ok_bind, StatusArg.failed, List.nil_append]
  rfl

/-- **All packets valid.** If there is a packet and `valid()` returns SUCCESS for each, `write` sets the status to SUCCESS and writes what it writes without a status. -/
theorem C59_write_valid (st : Status) (o : PgpObj (Pkt E)) (mode : ArmorMode) (hne : o.packets ≠ []) (h : ∀ p ∈ o.packets, check p.body = .ok .success) :
    writeChecked rawE check (some st) o mode = (do let r ← writeChecked rawE check none o mode; return (some .success, r.2)) := by
  rw [C59_unchecked, writeChecked, rawChecked_good st [] o.packets h]
  simp only [Out.bind_assoc', Out.pure_eq, Out.ok_bind, StatusArg.failed, List.nil_append, hne, if_false]
  rfl

/-- **A packet that is not.** The status is the one of the first packet that is not valid, and nothing is written: not the packets before it either. -/
theorem C59_write_invalid (st : Status) (o : PgpObj (Pkt E)) (mode : ArmorMode) (ps qs : List (Pkt E)) (p : Pkt E) (ho : o.packets = ps ++ p :: qs)
    (h : ∀ p ∈ ps, check p.body = .ok .success) (ws : Bytes) (hw : writeRaw (Pkt.write rawE) ps = .ok ws) (s : Status) (hs : check p.body = .ok s) (hne : s ≠ .success) :
    writeChecked rawE check (some st) o mode = .ok (some s, []) := by
  rw [writeChecked, ho, rawChecked_bad st [] ws ps qs p h hw hs hne, Out.ok_bind]
  simp [StatusArg.failed, hne]

/-- **Nothing to check.** An object without packets leaves the status as it was, and `write` decides on that: with a status that was SUCCESS before it writes, with any
other value it writes nothing. A `Status` that the caller has not initialised is read. -/
theorem C59_empty_fails (st : Status) (o : PgpObj (Pkt E)) (ho : o.packets = []) :
    writeChecked rawE check (some st) o .yes = (if st = .success then do let t ← pgpWrite o .yes []; return (some st, t) else .ok (some st, [])) := by
  rw [writeChecked, ho, rawChecked, Out.ok_bind]
  by_cases hs : st = .success <;> simp [StatusArg.failed, hs]

/-- **Cleartext signatures.** When the signature is not valid the status says so, but the header and the text are returned all the same, with no signature behind them. -/
theorem C59_cleartext_fails (st : Status) (o : Cleartext (Pkt E)) (p : Pkt E) (qs : List (Pkt E)) (ho : o.sig.packets = p :: qs) (s : Status)
    (hs : check p.body = .ok s) (hne : s ≠ .success) :
    ∃ t, cleartextWriteChecked rawE check (some st) o = .ok (some s, t) ∧ ascii "-----BEGIN PGP SIGNED MESSAGE-----" <+: t ∧ dashEscape o.message <:+: t := by
  rw [cleartextWriteChecked, C59_write_invalid st o.sig .yes [] qs p ho (by simp) [] rfl s hs hne, Out.ok_bind]
  refine ⟨_, rfl, ?_, ?_⟩
  · simp only [List.append_assoc]; exact List.prefix_append _ _
  · exact ⟨beginSigned ++ [10] ++ o.headers.flatMap (fun k => k.1 ++ ascii ": " ++ k.2 ++ [10]) ++ [10], [10] ++ [], by simp⟩

/-- **Compressed messages.** The packet with the compressed data is not checked: with packets that are valid the status is SUCCESS, whatever the algorithm. -/
theorem C59_compression_fails (z : Zip) (st : Status) (m : Msg E) (hne : m.packets ≠ []) (h : ∀ p ∈ m.packets, check p.body = .ok .success) (r : StatusArg × Bytes)
    (hr : msgRawChecked rawE check z (some st) m = .ok r) : r.1 = some .success := by
  rw [msgRawChecked, rawChecked_good st [] m.packets h] at hr
  simp only [Out.bind_assoc', Out.pure_eq, Out.ok_bind, StatusArg.failed, List.nil_append, hne, if_false] at hr
  obtain ⟨ws, -, hr⟩ := Out.bind_eq_ok.mp hr
  simp only [bne_self_eq_false, Bool.and_false, Bool.false_eq_true, if_false] at hr
  split at hr
  · obtain rfl := Out.ok.inj hr; rfl
  · obtain ⟨c, -, hr⟩ := Out.bind_eq_ok.mp hr
    obtain ⟨w, -, hr⟩ := Out.bind_eq_ok.mp hr
    obtain rfl := Out.ok.inj hr; rfl

/-- The check of a program: `valid(true)` of packets with no embedded signatures. -/
private def demoCheck : Body Empty → Out Status := Body.valid (fun _ => true) (fun e => e.elim) true
private def userPkt (s : String) : Pkt Empty := ⟨.new, false, .userId (ascii s)⟩
private def keyPkt (v : UInt8) : Pkt Empty := ⟨.new, false, .publicKey ⟨v, 0, 1, [15, 3], 0⟩⟩

/-- A key with a user ID: written. The same with a key of version 5: nothing, not even the first packet. -/
example : writeChecked (fun e => e.elim) demoCheck (some .length) ⟨false, 2, [], [keyPkt 4, userPkt "a"]⟩ .default =
      .ok (some .success, [0xc6, 12, 4, 0, 0, 0, 0, 1, 0, 4, 15, 0, 2, 3, 0xcd, 1, 0x61]) ∧
    writeChecked (fun e => e.elim) demoCheck (some .length) ⟨false, 2, [], [userPkt "a", keyPkt 5, keyPkt 4]⟩ .default = .ok (some .version, []) ∧
    writeChecked (fun e => e.elim) demoCheck (some .length) (⟨false, 2, [], []⟩ : PgpObj (Pkt Empty)) .yes = .ok (some .length, []) := by decide +kernel
end

/-! ## What the library makes -/

theorem signPka_length {draws : List Nat} {digest : Bytes} {pka hash : UInt8} {pri pub vals : List Nat} (hs : canSign pka = true)
    (h : signPka draws digest pka pri pub hash = .ok vals) (hne : vals ≠ []) : (pka, vals.length) ∈ [((1 : UInt8), 1), (3, 1), (17, 2)] := by
  rw [canSign_mem] at hs
  simp only [List.mem_cons, List.not_mem_nil, or_false] at hs
  rw [signPka] at h
  rcases hs with rfl | rfl | rfl
  · rw [if_pos (Or.inl rfl)] at h
    obtain ⟨n, -, h⟩ := Out.bind_eq_ok.mp h
    obtain ⟨em, -, h⟩ := Out.bind_eq_ok.mp h
    obtain ⟨s, -, h⟩ := Out.bind_eq_ok.mp h
    obtain rfl := Out.ok.inj h
    simp
  · rw [if_neg (by decide), if_neg (by decide)] at h
    exact absurd (Out.ok.inj h).symm hne
  · rw [if_neg (by decide), if_pos rfl, dsaSign] at h
    obtain ⟨m, -, h⟩ := Out.bind_eq_ok.mp h
    rw [dsaSignInt] at h
    obtain ⟨p, -, h⟩ := Out.bind_eq_ok.mp h
    obtain ⟨q, -, h⟩ := Out.bind_eq_ok.mp h
    obtain ⟨g, -, h⟩ := Out.bind_eq_ok.mp h
    obtain ⟨x, -, h⟩ := Out.bind_eq_ok.mp h
    split at h
    · cases h
    · suffices vals.length = 2 by simp [this]
      revert h
      generalize draws = ds
      induction ds with
      | nil => intro h; cases h
      | cons k ds ih =>
        intro h
        rw [dsaSignLoop] at h
        obtain ⟨⟨r, s⟩, -, h⟩ := Out.bind_eq_ok.mp h
        dsimp only at h
        split at h
        · exact ih h
        · obtain rfl := Out.ok.inj h; rfl

/-- A signature made from one whose fields are good is valid. -/
theorem makeSig_valid {cr : Crypto} (hcr : cr.Ok) {a : SignArgs E} {draws : List Nat} {t : Tag5} {sig s : Tag2 E} {input : Tag2 E → Out Bytes}
    (h : makeSig cr a draws t sig input = .ok (some s)) (hp : sig.pka = t.key.pka) (hs : canSign t.key.pka = true) (ht : SigType sig.type)
    (hv : sig.version = 3 ∨ sig.version = 4)
    (hsub : ∀ x ∈ sig.hashed ++ sig.unhashed, AllowedSub regexOk (fun e => ∃ st, validE e = .ok st ∧ st ≠ .success) x.body) (mpis : Bool) :
    s.valid regexOk validE mpis = .ok .success := by
  rw [makeSig] at h
  obtain ⟨digest, hd, h⟩ := Out.bind_eq_ok.mp h
  rw [finishSig] at h
  obtain ⟨l, hl, h⟩ := Out.bind_eq_ok.mp h
  obtain ⟨pri, -, h⟩ := Out.bind_eq_ok.mp h
  obtain ⟨vals, hvals, h⟩ := Out.bind_eq_ok.mp h
  split at h
  · cases Out.ok.inj h
  rename_i hne
  obtain rfl := Option.some.inj (Out.ok.inj h)
  rw [digestOf] at hd
  obtain ⟨i, -, hd⟩ := Out.bind_eq_ok.mp hd
  rw [hashUse] at hd
  split at hd
  swap
  · cases hd
  rename_i hh
  obtain ⟨n, hn⟩ := Option.isSome_iff_exists.mp hh
  obtain rfl := Out.ok.inj hd
  have hlen := hcr.hash_len sig.hash n i hn
  have hdig := (hashLen_iff _ _).mp hn
  have hn2 : 2 ≤ n := by
    simp only [Digest, List.mem_cons, List.not_mem_nil, or_false, Prod.mk.injEq] at hdig
    omega
  rw [substr_take (by omega)] at hl
  obtain rfl := Out.ok.inj hl
  refine (C59_signature mpis _).mpr ⟨hv, ht, ?_, (hashNamed_iff _).mp (hashNamed_of_digest hdig), fun _ => hsub, ?_, fun _ => ?_⟩
  · exact hp ▸ (canSign_mem _).mp hs
  · simp; omega
  · rw [hp] at *
    exact signPka_length hs hvals hne

theorem signerOf_canSign {k : KeyObj E} {t : Tag5} (h : signerOf k = .ok (some t)) : canSign t.key.pka = true := by
  rw [signerOf] at h
  obtain ⟨o, ho, h⟩ := Out.bind_eq_ok.mp h
  cases o with
  | none => cases Out.ok.inj h
  | some p =>
    rw [KeyObj.findSigningKey] at ho
    obtain ⟨g, -, ho⟩ := Out.bind_eq_ok.mp ho
    split at ho
    · cases Out.ok.inj ho
    have hf := List.find?_some (Out.ok.inj ho)
    dsimp only at h
    cases hb : p.body <;> rw [hb] at h hf <;> simp only [Body.secretPart, Body.keyPart] at h hf <;> first | (cases h; done) | skip
    all_goals
      obtain rfl := Option.some.inj (Out.ok.inj h)
      exact hf

theorem SignArgs.version_of_valid {a : SignArgs E} (h : a.valid = .ok true) : a.version = 3 ∨ a.version = 4 := by
  rw [SignArgs.valid] at h
  split at h
  · cases Out.ok.inj h
  obtain ⟨g, -, h⟩ := Out.bind_eq_ok.mp h
  split at h
  · cases Out.ok.inj h
  split at h
  · cases Out.ok.inj h
  · tauto

/-- **Signatures of the library.** What `detached_signature`, `cleartext_signature` and `timestamp` make with a signing key of version 4 are valid, number of integers
included: writing them with a status never fails. -/
theorem C59_signed (cr : Crypto) (hcr : cr.Ok) (rawE : E → Bytes) (a : SignArgs E) (now : Nat) (draws : List Nat)
    (h4 : ∀ t, signerOf a.pri = .ok (some t) → t.key.version = 4) (mpis : Bool) (p : Pkt E) :
    (∀ data o, signDetached cr rawE a now draws data = .ok o → p ∈ o.packets → p.body.valid regexOk validE mpis = .ok .success) ∧
    (∀ text c, signCleartext cr rawE a now draws text = .ok c → p ∈ c.sig.packets → p.body.valid regexOk validE mpis = .ok .success) ∧
    (∀ time o, signTimestamp cr rawE a now draws time = .ok o → p ∈ o.packets → p.body.valid regexOk validE mpis = .ok .success) := by
  have key : ∀ (t : Tag5) (kid : Bytes), signerOf a.pri = .ok (some t) → t.key.keyid cr = .ok kid → kid.length = 8 := by
    intro t kid ht hk
    obtain ⟨f, -, -, -, hkid, hk8⟩ := C11_keyid cr hcr t.key (h4 t ht)
    obtain rfl := Out.ok.inj (hk.symm.trans hkid)
    exact hk8
  have subs : ∀ (now : Nat) (kid : Bytes), kid.length = 8 → ∀ x ∈ [(⟨false, .sigTime now⟩ : Sub E)] ++ [⟨false, .issuer kid⟩],
      AllowedSub regexOk (fun e => ∃ st, validE e = .ok st ∧ st ≠ .success) x.body := by
    intro now kid hk x hx
    simp only [List.cons_append, List.nil_append, List.mem_cons, List.not_mem_nil, or_false] at hx
    rcases hx with rfl | rfl
    · trivial
    · exact hk
  have fin : ∀ s : Tag2 E, p ∈ (detachedOf s).packets → s.valid regexOk validE mpis = .ok .success → p.body.valid regexOk validE mpis = .ok .success := by
    intro s hp hs
    obtain rfl := List.mem_singleton.mp hp
    exact hs
  refine ⟨fun data o h hp => ?_, fun text c h hp => ?_, fun time o h hp => ?_⟩
  · rw [signDetached] at h
    obtain ⟨v, hv, h⟩ := Out.bind_eq_ok.mp h
    split at h
    · obtain rfl := Out.ok.inj h; exact absurd hp (by simp [noDetached, PgpObj.fresh])
    rename_i hv'
    rw [Bool.not_eq_true, Bool.not_eq_false'] at hv'
    subst hv'
    obtain ⟨t, ht, h⟩ := Out.bind_eq_ok.mp h
    cases t with
    | none => obtain rfl := Out.ok.inj h; exact absurd hp (by simp [noDetached, PgpObj.fresh])
    | some t =>
      obtain ⟨r, -, h⟩ := Out.bind_eq_ok.mp h
      cases r with
      | yes => obtain rfl := Out.ok.inj h; exact absurd hp (by simp [noDetached, PgpObj.fresh])
      | error => obtain rfl := Out.ok.inj h; exact absurd hp (by simp [noDetached, PgpObj.fresh])
      | no =>
        obtain ⟨kid, hkid, h⟩ := Out.bind_eq_ok.mp h
        obtain ⟨s, hs, h⟩ := Out.bind_eq_ok.mp h
        cases s with
        | none => obtain rfl := Out.ok.inj h; exact absurd hp (by simp [noDetached, PgpObj.fresh])
        | some s =>
          obtain rfl := Out.ok.inj h
          exact fin s hp (makeSig_valid hcr hs rfl (signerOf_canSign ht) (by show SigType _; dsimp only [createSig]; decide) (SignArgs.version_of_valid hv) (subs _ _ (key t kid ht hkid)) mpis)
  · rw [signCleartext] at h
    obtain ⟨v, hv, h⟩ := Out.bind_eq_ok.mp h
    split at h
    · obtain rfl := Out.ok.inj h; exact absurd hp (by simp [Cleartext.fresh, PgpObj.fresh])
    rename_i hv'
    rw [Bool.not_eq_true, Bool.not_eq_false'] at hv'
    subst hv'
    obtain ⟨t, ht, h⟩ := Out.bind_eq_ok.mp h
    cases t with
    | none => obtain rfl := Out.ok.inj h; exact absurd hp (by simp [Cleartext.fresh, PgpObj.fresh])
    | some t =>
      obtain ⟨kid, hkid, h⟩ := Out.bind_eq_ok.mp h
      obtain ⟨s, hs, h⟩ := Out.bind_eq_ok.mp h
      cases s with
      | none => obtain rfl := Out.ok.inj h; exact absurd hp (by simp [Cleartext.fresh, PgpObj.fresh])
      | some s =>
        obtain rfl := Out.ok.inj h
        exact fin s hp (makeSig_valid hcr hs rfl (signerOf_canSign ht) (by show SigType _; dsimp only [createSig]; decide) (SignArgs.version_of_valid hv) (subs _ _ (key t kid ht hkid)) mpis)
  · rw [signTimestamp] at h
    obtain ⟨v, hv, h⟩ := Out.bind_eq_ok.mp h
    split at h
    · obtain rfl := Out.ok.inj h; exact absurd hp (by simp [noDetached, PgpObj.fresh])
    rename_i hv'
    rw [Bool.not_eq_true, Bool.not_eq_false'] at hv'
    subst hv'
    obtain ⟨t, ht, h⟩ := Out.bind_eq_ok.mp h
    cases t with
    | none => obtain rfl := Out.ok.inj h; exact absurd hp (by simp [noDetached, PgpObj.fresh])
    | some t =>
      obtain ⟨kid, hkid, h⟩ := Out.bind_eq_ok.mp h
      obtain ⟨s, hs, h⟩ := Out.bind_eq_ok.mp h
      cases s with
      | none => obtain rfl := Out.ok.inj h; exact absurd hp (by simp [noDetached, PgpObj.fresh])
      | some s =>
        obtain rfl := Out.ok.inj h
        exact fin s hp (makeSig_valid hcr hs rfl (signerOf_canSign ht) (by show SigType _; dsimp only [createSig]; decide) (SignArgs.version_of_valid hv) (subs _ _ (key t kid ht hkid)) mpis)

theorem pgpEncLoop_grows {c : Cipher} {data : Bytes} {fuel x : Nat} {C out : Bytes} (h : pgpEncLoop c data fuel x C = .ok out) : C.length ≤ out.length := by
  induction fuel generalizing x C with
  | zero => cases h
  | succ fuel ih =>
    rw [pgpEncLoop] at h
    split at h
    · obtain ⟨fr, -, h⟩ := Out.bind_eq_ok.mp h
      obtain ⟨e, -, h⟩ := Out.bind_eq_ok.mp h
      obtain ⟨d, -, h⟩ := Out.bind_eq_ok.mp h
      have := ih h
      simp only [List.length_append] at this
      omega
    · obtain rfl := Out.ok.inj h; exact le_refl _

theorem pgpCfbEncrypt_two {c : Cipher} (hc : c.Ok) {tag : Nat} {data pre out : Bytes} (h : pgpCfbEncrypt c tag data pre = .ok out) : 2 ≤ out.length := by
  have hb := hc.bs_pos
  rw [pgpCfbEncrypt] at h
  split at h
  · cases h
  rename_i hp
  obtain ⟨fre, hf, h⟩ := Out.bind_eq_ok.mp h
  rw [Cipher.encrypt, if_pos (by simp)] at hf
  obtain rfl := Out.ok.inj hf
  have hl := hc.enc_len (List.replicate c.bs 0) (by simp)
  obtain ⟨fre2, -, h⟩ := Out.bind_eq_ok.mp h
  split at h
  · obtain ⟨p2, -, h⟩ := Out.bind_eq_ok.mp h
    obtain ⟨fr, -, h⟩ := Out.bind_eq_ok.mp h
    obtain ⟨fre3, -, h⟩ := Out.bind_eq_ok.mp h
    have := pgpEncLoop_grows h
    simp only [List.length_append, xorStrings_length, List.length_take, hl] at this
    omega
  · split at h
    · obtain ⟨p2, -, h⟩ := Out.bind_eq_ok.mp h
      have := pgpEncLoop_grows h
      simp only [List.length_append, xorStrings_length, List.length_take, hl] at this
      omega
    · cases h

/-- **Messages of the library.** The packets of a message encrypted with a passphrase are valid, whatever the options. -/
theorem C59_encrypted (cr : Crypto) (hcr : cr.Ok) (z : Zip) (rawE : E → Bytes) (a : EncArgs) (salt rand pass : Bytes) (keyHash : UInt8) (m : Msg E)
    (h : encryptSym cr z rawE a salt rand pass keyHash = .ok m) (mpis : Bool) (p : Pkt E) (hp : p ∈ m.packets) :
    p.body.valid regexOk validE mpis = .ok .success := by
  rw [encryptSym] at h
  split at h
  · obtain rfl := Out.ok.inj h; exact absurd hp (by simp [Msg.empty])
  rename_i hv
  split at h
  · cases h
  rename_i hsalt
  obtain ⟨t, ht, h⟩ := Out.bind_eq_ok.mp h
  obtain rfl := Out.ok.inj ht
  obtain ⟨sk, hsk, h⟩ := Out.bind_eq_ok.mp h
  obtain ⟨key, hkey, h⟩ := Out.bind_eq_ok.mp h
  obtain ⟨e, he, h⟩ := Out.bind_eq_ok.mp h
  rw [Tag3.getSessionKey] at hsk
  obtain ⟨n, hn, hsk⟩ := Out.bind_eq_ok.mp hsk
  obtain ⟨k, hk, hsk⟩ := Out.bind_eq_ok.mp hsk
  obtain rfl := Out.ok.inj hsk
  have hkl : keyLen a.sym = some n := by
    cases hkl : keyLen a.sym with
    | none => rw [show (⟨4, a.sym, some (.iterated keyHash salt 96), none⟩ : Tag3).sym = a.sym from rfl, hkl] at hn; cases hn
    | some n' => rw [show (⟨4, a.sym, some (.iterated keyHash salt 96), none⟩ : Tag3).sym = a.sym from rfl, hkl] at hn; rw [Out.ok.inj hn]
  have hk0 := hk
  rw [S2K.run] at hk
  obtain ⟨dl, hdl, hk⟩ := Out.bind_eq_ok.mp hk
  have hklen : k.length = n := by
    cases hdl' : hashLen keyHash with
    | none => rw [hdl'] at hdl; cases hdl
    | some l =>
      have hpos : 1 ≤ l := by
        have := (hashLen_iff _ _).mp hdl'
        simp only [Digest, List.mem_cons, List.not_mem_nil, or_false, Prod.mk.injEq] at this
        omega
      obtain ⟨k', hk1, hk2, -⟩ := C20_run cr hcr (.iterated keyHash salt 96) (not_not.mp hsalt) l hdl' pass n n (Nat.le_mul_of_pos_right n hpos)
      obtain rfl := Out.ok.inj (hk1.symm.trans hk0)
      exact hk2
  have hkeylen : key.length = n := by
    rw [substr_take (by simp)] at hkey
    obtain rfl := Out.ok.inj hkey
    simp [subSz, hklen]
  have hhash : hashNamed keyHash = true := by
    cases hdl' : hashLen keyHash with
    | none => rw [hdl'] at hdl; cases hdl
    | some l => exact hashNamed_of_digest ((hashLen_iff _ _).mp hdl')
  have hsym : symNamed a.sym = true :=
    u8_all (p := fun s => (keyLen s).isSome → symNamed s = true) (by decide +kernel) a.sym (by rw [hkl]; rfl)
  have h0 : a.sym ≠ 0 := by rintro h0; rw [h0] at hkl; exact absurd hkl (by simp [keyLen])
  cases e with
  | none => obtain rfl := Out.ok.inj h; exact absurd hp (by simp [Msg.empty])
  | some e =>
    obtain rfl := Out.ok.inj h
    simp only [List.mem_cons, List.not_mem_nil, or_false] at hp
    rcases hp with rfl | rfl
    · simp only [Body.valid, Tag3.valid, hsym, S2K.valid, hhash]
      simp only [not_not] at hsalt
      simp [hsalt]
    · rw [encryptData, if_neg hv] at he
      obtain ⟨pl, -, he⟩ := Out.bind_eq_ok.mp he
      obtain ⟨bs, hbs, he⟩ := Out.bind_eq_ok.mp he
      split at he
      · cases he
      obtain ⟨pr, hpr, he⟩ := Out.bind_eq_ok.mp he
      obtain ⟨e, hee, he⟩ := Out.bind_eq_ok.mp he
      obtain rfl := Option.some.inj (Out.ok.inj he)
      rw [encPacket] at hee
      split at hee
      · obtain ⟨hh, -, hee⟩ := Out.bind_eq_ok.mp hee
        obtain ⟨mm, -, hee⟩ := Out.bind_eq_ok.mp hee
        obtain ⟨d, -, hee⟩ := Out.bind_eq_ok.mp hee
        obtain rfl := Out.ok.inj hee
        simp [Body.valid]
      · obtain ⟨d, hd, hee⟩ := Out.bind_eq_ok.mp hee
        obtain rfl := Out.ok.inj hee
        rw [usePgpCfbEncrypt, if_neg h0] at hd
        obtain ⟨c, hc, hd⟩ := Out.bind_eq_ok.mp hd
        have hck : c.Ok := by
          rw [symSetup] at hc
          split at hc
          swap
          · cases hc
          obtain ⟨c', hc1, hc2, -⟩ := hcr.cipher_ok a.sym n key hkl hkeylen
          obtain rfl := Out.ok.inj (hc1.symm.trans hc)
          exact hc2
        have := pgpCfbEncrypt_two hck hd
        simp only [Body.valid]
        rw [if_neg (by omega)]

end OpenPGP
