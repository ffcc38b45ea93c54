import Verif.Props.C27

/-!
# C28: modified integrity-protected data is rejected

`Decrypt::data` signals refusal by returning an empty `Message`.
-/
namespace OpenPGP

section
variable {E : Type} (cr : Crypto) (z : Zip) (readE : Bytes → Out E)

theorem readLoop_nonempty {depth : Nat} {comp : Option (Fmt × Bool × UInt8)} {d : Bytes} {r : Msg E}
    (h : Msg.readLoop z readE depth comp d = .ok r) : r.packets ≠ [] := by
  induction depth generalizing comp d with
  | zero => simp [Msg.readLoop] at h
  | succ k ih =>
    rw [Msg.readLoop] at h
    obtain ⟨ps, hps, h⟩ := Out.bind_eq_ok.mp h
    obtain ⟨g, hg, h⟩ := Out.bind_eq_ok.mp h
    cases g with
    | false => simp at h
    | true =>
      simp only [Bool.not_true, Bool.false_eq_true, if_false] at h
      split at h
      · obtain ⟨i, hi, h⟩ := Out.bind_eq_ok.mp h
        exact ih h
      · obtain rfl := Out.ok.inj h
        intro h0
        rw [show ps = [] from h0] at hg
        simp [messageMeaningful, matchTags, matchTagsWith] at hg

theorem subSz_of_le {a b : Nat} (h : b ≤ a) : subSz a b = a - b := if_pos h

theorem stripDecrypted_some {bs : Nat} {x o : Bytes} (ho : stripDecrypted cr bs 18 x = .ok (some o)) :
    bs + 2 + 22 ≤ x.length ∧ cr.hash 2 (x.take (x.length - 20)) = x.drop (x.length - 20) ∧
      o = (x.drop (bs + 2)).take (x.length - (bs + 2) - 22) := by
  unfold stripDecrypted at ho
  rw [if_pos rfl] at ho
  obtain ⟨cs, hcs, ho⟩ := Out.bind_eq_ok.mp ho
  obtain ⟨d', hd', ho⟩ := Out.bind_eq_ok.mp ho
  obtain ⟨hh, hhh, ho⟩ := Out.bind_eq_ok.mp ho
  have h20 : 20 ≤ x.length := by
    by_contra hc
    have e : subSz x.length 20 = x.length + 2 ^ 64 - 20 := if_neg hc
    rw [e, substr, if_pos (by omega)] at hcs
    exact absurd hcs (by simp)
  rw [subSz_of_le h20, substr_take (by omega)] at hcs hd'
  have hcs' : cs = x.drop (x.length - 20) := by
    rw [← Out.ok.inj hcs, List.take_of_length_le]; rw [List.length_drop]; omega
  rw [List.drop_zero] at hd'
  obtain rfl := Out.ok.inj hd'
  have hhh' : hh = cr.hash 2 (x.take (x.length - 20)) := (Out.ok.inj hhh).symm
  by_cases hc : hh ≠ cs
  · rw [if_pos hc] at ho
    exact absurd (Out.ok.inj ho) (by simp)
  · rw [if_neg hc] at ho
    have l1 : (x.take (x.length - 20)).length = x.length - 20 := by rw [List.length_take]; omega
    obtain ⟨d2, hd2, ho⟩ := Out.bind_eq_ok.mp ho
    obtain ⟨d3, hd3, ho⟩ := Out.bind_eq_ok.mp ho
    obtain rfl := Option.some.inj (Out.ok.inj ho)
    have h22 : 22 ≤ x.length := by
      by_contra h22
      have hd2l : d2.length ≤ 1 := by
        rw [substr_take (by omega)] at hd2
        rw [← Out.ok.inj hd2, List.drop_zero, List.length_take, l1]; omega
      rw [substr, if_pos (by omega)] at hd3
      exact absurd hd3 (by simp)
    rw [l1, subSz_of_le (by omega), substr_take (by omega)] at hd2
    obtain rfl := Out.ok.inj hd2
    rw [List.drop_zero, List.take_take, show min (x.length - 20 - 2) (x.length - 20) = x.length - 22 by omega] at hd3
    have l2 : (x.take (x.length - 22)).length = x.length - 22 := by rw [List.length_take]; omega
    have hb : bs + 2 + 22 ≤ x.length := by
      by_contra hb
      rw [substr, if_pos (by omega)] at hd3
      exact absurd hd3 (by simp)
    refine ⟨hb, by rw [← hhh', ← hcs']; exact not_not.mp hc, ?_⟩
    rw [l2, subSz_of_le (a := x.length - 22) (b := bs) (by omega), subSz_of_le (by omega), substr_take (by omega)] at hd3
    rw [← Out.ok.inj hd3, List.drop_take, List.take_take]
    congr 1
    omega

/-- A message whose encrypted packet is of the integrity-protected kind is decrypted to something only if the last 20 decrypted
octets are the SHA-1 digest of all decrypted octets before them; what is then parsed is the decrypted text without the random
prefix (block size + 2 octets) and without the last 22 octets. -/
theorem C28_accepts_only (depth : Nat) (sym : UInt8) (m : Msg E) (key d : Bytes) (r : Msg E)
    (hd : firstEncrypted m.packets = some (18, d)) (h : decryptData cr z readE depth sym m key = .ok r)
    (hne : r.packets ≠ []) :
    ∃ (plain : Bytes) (bs : Nat), usePgpCfbDecrypt cr sym 18 d key = .ok plain ∧ blockLen sym = some bs ∧
      bs + 2 + 22 ≤ plain.length ∧
      cr.hash 2 (plain.take (plain.length - 20)) = plain.drop (plain.length - 20) ∧
      Msg.readRaw z readE depth ((plain.drop (bs + 2)).take (plain.length - (bs + 2) - 22)) = .ok r := by
  rw [decryptData] at h
  obtain ⟨g, -, h⟩ := Out.bind_eq_ok.mp h
  cases g with
  | false =>
    obtain rfl := Out.ok.inj h
    exact absurd rfl hne
  | true =>
    simp only [Bool.not_true, Bool.false_eq_true, if_false] at h
    rw [hd] at h
    simp only at h
    split at h
    · obtain rfl := Out.ok.inj h
      exact absurd rfl hne
    · obtain ⟨x, hx, h⟩ := Out.bind_eq_ok.mp h
      obtain ⟨bs, hbs, h⟩ := Out.bind_eq_ok.mp h
      obtain ⟨o, ho, h⟩ := Out.bind_eq_ok.mp h
      have hbs' : blockLen sym = some bs := by
        cases hb : blockLen sym with
        | none => rw [hb] at hbs; exact absurd hbs (by simp [mapAt])
        | some b => rw [hb] at hbs; rw [Out.ok.inj hbs]
      cases o with
      | none =>
        obtain rfl := Out.ok.inj h
        exact absurd rfl hne
      | some o =>
        obtain ⟨h1, h2, rfl⟩ := stripDecrypted_some cr ho
        exact ⟨x, bs, hx, hbs', h1, h2, h⟩

/-- When the digest does not match, the result is the empty message. -/
theorem C28_rejects (depth : Nat) (sym : UInt8) (m : Msg E) (key d plain : Bytes) (bs : Nat)
    (hm : m.meaningful = .ok true) (hd : firstEncrypted m.packets = some (18, d)) (hb : blockLen sym = some bs)
    (hp : usePgpCfbDecrypt cr sym 18 d key = .ok plain) (h20 : 20 ≤ plain.length)
    (hbad : cr.hash 2 (plain.take (plain.length - 20)) ≠ plain.drop (plain.length - 20)) :
    decryptData cr z readE depth sym m key = .ok .empty := by
  rw [decryptData, hm, Out.ok_bind]
  simp only [Bool.not_true, Bool.false_eq_true, if_false, hd]
  split
  · rfl
  · rw [hp, Out.ok_bind, hb, mapAt, Out.ok_bind]
    unfold stripDecrypted
    rw [if_pos rfl, subSz_of_le h20, substr_take (by omega), Out.ok_bind, substr_take (by omega), Out.ok_bind]
    rw [List.drop_zero, List.take_of_length_le (l := plain.drop _) (by rw [List.length_drop]; omega)]
    rw [hashUse, show (hashLen 2).isSome = true from rfl, if_pos rfl, Out.ok_bind, if_pos hbad]
    rfl

end

/-- CFB decryption is injective: two different ciphertexts accepted under one key have different decryptions. -/
theorem C28_cfb_injective (c : Cipher) (hc : c.Ok) (tag : Nat) (d d' p : Bytes) (h : pgpCfbDecrypt c tag d = .ok p)
    (h' : pgpCfbDecrypt c tag d' = .ok p) : d = d' := by
  have hbs := hc.bs_pos
  have h0 : (List.replicate c.bs (0 : UInt8)).length = c.bs := List.length_replicate
  have hE0 := hc.enc_len _ h0
  have len : ∀ e, pgpCfbDecrypt c tag e = .ok p → e.length = p.length ∧ c.bs + 2 ≤ e.length := by
    intro e he
    rcases C16_check c hc tag e with h1 | ⟨out, h1, h2, h3, -⟩
    · rw [h1] at he; exact absurd he (by simp)
    · obtain rfl := Out.ok.inj (h1.symm.trans he)
      exact ⟨h2.symm, by omega⟩
  obtain ⟨l1, l2⟩ := len d h
  obtain ⟨l1', l2'⟩ := len d' h'
  rw [pgpDec_eq c hc tag d l2 _ rfl] at h
  rw [pgpDec_eq c hc tag d' l2' _ rfl] at h'
  split at h
  · split at h'
    · rename_i hm hm'
      have h := Out.ok.inj h
      have h' := Out.ok.inj h'
      have tl : (d.take c.bs).length = c.bs := by rw [List.length_take]; omega
      have tl' : (d'.take c.bs).length = c.bs := by rw [List.length_take]; omega
      have xl : (xorStrings (c.enc (List.replicate c.bs 0)) (d.take c.bs)).length = c.bs := by
        rw [xorStrings_length]; omega
      have xl' : (xorStrings (c.enc (List.replicate c.bs 0)) (d'.take c.bs)).length = c.bs := by
        rw [xorStrings_length]; omega
      rw [← h', List.append_assoc, List.append_assoc] at h
      obtain ⟨ha, hb⟩ := List.append_inj h (by omega)
      have ht : d.take c.bs = d'.take c.bs := by
        have := congrArg (xorStrings (c.enc (List.replicate c.bs 0))) ha
        rwa [xorStrings_cancel _ _ (by omega), xorStrings_cancel _ _ (by omega)] at this
      rw [ht] at hb hm
      by_cases h9 : tag = 9
      · simp only [h9, if_true] at hb
        have hb := List.append_cancel_left hb
        have h2 : (d.drop c.bs).take 2 = (d'.drop c.bs).take 2 := by
          have := hm.symm.trans hm'
          have e1 := hc.enc_len _ tl'
          have := congrArg (xorStrings ((c.enc (d'.take c.bs)).take 2)) this
          rwa [xorStrings_cancel _ _ (by simp only [List.length_take]; omega),
            xorStrings_cancel _ _ (by simp only [List.length_take]; omega)] at this
        have h22 : d.take (c.bs + 2) = d'.take (c.bs + 2) := by
          rw [List.take_add, List.take_add, ht, h2]
        have hiv : (d.drop 2).take c.bs = (d'.drop 2).take c.bs := by
          have e : ∀ x : Bytes, (x.drop 2).take c.bs = (x.take (c.bs + 2)).drop 2 := by
            intro x; rw [List.drop_take]; rfl
          rw [e, e, h22]
        have hivl : ((d'.drop 2).take c.bs).length = c.bs := by rw [List.length_take, List.length_drop]; omega
        rw [hiv] at hb
        have hd : d.drop (c.bs + 2) = d'.drop (c.bs + 2) := by
          have := congrArg (cfbE c (d.drop (c.bs + 2)).length ((d'.drop 2).take c.bs)) hb
          unfold cfbDec at this
          rw [cfbE_cfbD hc _ _ _ hivl (le_refl _)] at this
          rw [show (d.drop (c.bs + 2)).length = (d'.drop (c.bs + 2)).length by
            simp only [List.length_drop]; omega] at this
          rwa [cfbE_cfbD hc _ _ _ hivl (le_refl _)] at this
        rw [← List.take_append_drop (c.bs + 2) d, h22, hd, List.take_append_drop]
      · simp only [h9, if_false, List.nil_append] at hb
        have hd : d.drop c.bs = d'.drop c.bs := by
          have := congrArg (cfbE c (d.drop c.bs).length (d'.take c.bs)) hb
          unfold cfbDec at this
          rw [cfbE_cfbD hc _ _ _ tl' (le_refl _)] at this
          rw [show (d.drop c.bs).length = (d'.drop c.bs).length by
            simp only [List.length_drop]; omega] at this
          rwa [cfbE_cfbD hc _ _ _ tl' (le_refl _)] at this
        rw [← List.take_append_drop c.bs d, ht, hd, List.take_append_drop]
    · exact absurd h' (by simp)
  · exact absurd h (by simp)

/-- Altering an accepted integrity-protected text in any way, and having it accepted again under the same key, takes a second
text with a matching digest: the two decryptions differ, and each ends with the digest of its own beginning. In particular if
only octets before the last 20 decrypted ones changed, the two beginnings are a SHA-1 collision. -/
theorem C28_forgery_needs_digest {E : Type} (cr : Crypto) (hcr : cr.Ok) (z : Zip) (readE : Bytes → Out E) (depth : Nat)
    (sym : UInt8) (n : Nat) (hk : keyLen sym = some n) (m m' : Msg E) (key d d' : Bytes) (hkey : key.length = n) (r r' : Msg E)
    (hd : firstEncrypted m.packets = some (18, d)) (hd' : firstEncrypted m'.packets = some (18, d')) (hne : d ≠ d')
    (h : decryptData cr z readE depth sym m key = .ok r) (hr : r.packets ≠ [])
    (h' : decryptData cr z readE depth sym m' key = .ok r') (hr' : r'.packets ≠ []) :
    ∃ a b x y : Bytes, usePgpCfbDecrypt cr sym 18 d key = .ok (a ++ x) ∧ usePgpCfbDecrypt cr sym 18 d' key = .ok (b ++ y) ∧
      x = cr.hash 2 a ∧ y = cr.hash 2 b ∧ a ≠ b ∧ (x = y → cr.hash 2 a = cr.hash 2 b) := by
  obtain ⟨p, bs, h1, -, h3, h4, -⟩ := C28_accepts_only cr z readE depth sym m key d r hd h hr
  obtain ⟨p', bs', h1', -, h3', h4', -⟩ := C28_accepts_only cr z readE depth sym m' key d' r' hd' h' hr'
  refine ⟨p.take (p.length - 20), p'.take (p'.length - 20), p.drop (p.length - 20), p'.drop (p'.length - 20), ?_, ?_,
    h4.symm, h4'.symm, ?_, ?_⟩
  · rw [List.take_append_drop, h1]
  · rw [List.take_append_drop, h1']
  · intro hab
    apply hne
    have hpp : p = p' := by
      rw [← List.take_append_drop (p.length - 20) p, ← List.take_append_drop (p'.length - 20) p', ← h4, ← h4', hab]
    subst hpp
    have hs0 : sym ≠ 0 := by rintro rfl; simp [keyLen] at hk
    obtain ⟨c, hc1, hc2, hc3⟩ := hcr.cipher_ok sym n key hk hkey
    have hset : symSetup cr sym key = .ok c := by rw [symSetup, hc3]; simpa using hc1
    rw [usePgpCfbDecrypt, if_neg hs0, hset, Out.ok_bind] at h1 h1'
    exact C28_cfb_injective c hc2 18 d d' p h1 h1'
  · intro hxy; rw [h4, h4', hxy]

/-- Two encryptions of `c27Args` with different prefixes, and what comes back from each. -/
def c28Msg (rand : Bytes) : Msg Empty :=
  match encryptData demoCrypto demoZip (fun e : Empty => nomatch e) c27Args rand (List.replicate 32 5) with
  | .ok (some e) => ⟨none, [e]⟩
  | _ => .empty

example : ∃ d d' r r', firstEncrypted (c28Msg (List.replicate 16 1)).packets = some (18, d) ∧
    firstEncrypted (c28Msg (List.replicate 16 2)).packets = some (18, d') ∧ d ≠ d' ∧
    decryptData demoCrypto demoZip (fun _ => .throw) 2 9 (c28Msg (List.replicate 16 1)) (List.replicate 32 5) = .ok r ∧
    decryptData demoCrypto demoZip (fun _ => .throw) 2 9 (c28Msg (List.replicate 16 2)) (List.replicate 32 5) = .ok r' ∧
    r.packets ≠ [] ∧ r'.packets ≠ [] := by
  refine ⟨_, _, ⟨some (.new, false, 2), [EncArgs.literal c27Args]⟩, ⟨some (.new, false, 2), [EncArgs.literal c27Args]⟩,
    rfl, rfl, ?_, ?_, ?_, by simp, by simp⟩ <;> decide +kernel

/-- A damaged text, the last octet of the ciphertext cut off: `C28_rejects` applies. -/
def c28Cut : Bytes := (((firstEncrypted (c28Msg (List.replicate 16 1)).packets).getD (0, [])).2).dropLast

example : ∃ plain, usePgpCfbDecrypt demoCrypto 9 18 c28Cut (List.replicate 32 5) = .ok plain ∧ 20 ≤ plain.length ∧
    demoCrypto.hash 2 (plain.take (plain.length - 20)) ≠ plain.drop (plain.length - 20) := by
  refine ⟨_, rfl, ?_, ?_⟩ <;> decide +kernel

/-- RFC 4880 5.14 wants the decrypted text to end with a whole modification detection code packet, beginning D3 14. The library
never looks at those two octets: with any two octets in their place (and the digest over them) the message is accepted. -/
theorem C28_mdc_header_unchecked {cr : Crypto} (hcr : cr.Ok) (bs : Nat) (p plain : Bytes) (x y : UInt8)
    (hp : p.length = bs + 2) :
    stripDecrypted cr bs 18 (p ++ plain ++ [x, y] ++ cr.hash 2 (p ++ plain ++ [x, y])) = .ok (some plain) := by
  have hh : (cr.hash 2 (p ++ plain ++ [x, y])).length = 20 := hcr.hash_len 2 20 _ rfl
  set h := cr.hash 2 (p ++ plain ++ [x, y]) with hh'
  have hla : (p ++ plain ++ [x, y]).length = bs + 2 + plain.length + 2 := by
    simp only [List.length_append, hp, List.length_cons, List.length_nil]
  have hl : (p ++ plain ++ [x, y] ++ h).length = bs + 2 + plain.length + 2 + 20 := by
    rw [List.length_append, hla, hh]
  have e1 : subSz (p ++ plain ++ [x, y] ++ h).length 20 = bs + 2 + plain.length + 2 := by
    rw [hl, subSz_of_le (by omega)]; omega
  have e2 : subSz (p ++ plain ++ [x, y]).length 2 = bs + 2 + plain.length := by
    rw [hla, subSz_of_le (by omega)]; omega
  have e3 : subSz (subSz (p ++ plain).length bs) 2 = plain.length := by
    rw [List.length_append, hp, subSz_of_le (a := bs + 2 + plain.length) (b := bs) (by omega), subSz_of_le (by omega)]; omega
  unfold stripDecrypted
  rw [if_pos rfl, e1, substr_take (by omega), Out.ok_bind, substr_take (by omega), Out.ok_bind]
  rw [List.drop_left' hla, List.take_of_length_le (l := h) (by omega), List.drop_zero, List.take_left' hla]
  rw [hashUse, show (hashLen 2).isSome = true from rfl, if_pos rfl, Out.ok_bind, ← hh',
    if_neg (not_not.mpr rfl), e2, substr_take (by omega), Out.ok_bind, List.drop_zero,
    List.take_left' (by rw [List.length_append, hp])]
  rw [e3, substr_take (by rw [List.length_append, hp]; omega), Out.ok_bind, List.drop_left' hp,
    List.take_of_length_le (le_refl _)]
  rfl

end OpenPGP
