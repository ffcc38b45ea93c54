import Verif.Props.C28
import Verif.Props.C16

/-!
# C28: data without integrity protection

For a packet of tag 9 nothing is compared with a digest, and the octets at the end can be replaced by whoever knows them.
-/
namespace OpenPGP

/-- Up to one block is xored with the encryption of the block in front of it. -/
theorem cfbDec_tail {c : Cipher} (hc : c.Ok) (iv b : Bytes) (h : b.length ≤ c.bs) : cfbDec c iv b = xorStrings (c.enc iv) b := by
  rw [cfbDec_step hc, List.drop_of_length_le h, List.take_of_length_le h, cfbDec_nil, List.append_nil]

/-- What is behind whole blocks is decrypted with the last of them. -/
theorem cfbDec_blocks {c : Cipher} (hc : c.Ok) : ∀ (k : Nat) (iv a : Bytes), iv.length = c.bs → a.length = k * c.bs →
    ∃ iv', iv'.length = c.bs ∧ ∀ b, cfbDec c iv (a ++ b) = cfbDec c iv a ++ cfbDec c iv' b := by
  intro k
  induction k with
  | zero =>
    intro iv a hiv ha
    obtain rfl : a = [] := List.length_eq_zero_iff.mp (by omega)
    exact ⟨iv, hiv, fun b => by simp⟩
  | succ k ih =>
    intro iv a hiv ha
    have hs : (k + 1) * c.bs = k * c.bs + c.bs := by ring
    have hl : c.bs ≤ a.length := by omega
    obtain ⟨iv', h1, h2⟩ := ih (a.take c.bs) (a.drop c.bs) (by rw [List.length_take]; omega) (by rw [List.length_drop]; omega)
    refine ⟨iv', h1, fun b => ?_⟩
    rw [cfbDec_step hc iv (a ++ b), List.take_append_of_le_length hl, List.drop_append_of_le_length hl, h2, cfbDec_step hc iv a, List.append_assoc]

theorem xorStrings_swap (e a q w : Bytes) (ha : a.length ≤ e.length) (hq : q = xorStrings e a) (hw : w.length = a.length) :
    xorStrings e (xorStrings a (xorStrings q w)) = w := by
  subst hq
  induction e generalizing a w with
  | nil =>
    obtain rfl : a = [] := List.length_eq_zero_iff.mp (by simpa using ha)
    obtain rfl : w = [] := List.length_eq_zero_iff.mp (by simpa using hw)
    rfl
  | cons x e ih =>
    cases a with
    | nil =>
      obtain rfl : w = [] := List.length_eq_zero_iff.mp (by simpa using hw)
      rfl
    | cons y a =>
      cases w with
      | nil => simp at hw
      | cons v w =>
        have := ih a w (by simpa using ha) (by simpa using hw)
        simp only [xorStrings, List.zipWith_cons_cons] at this ⊢
        rw [this]
        congr 1
        rw [← UInt8.xor_assoc, ← UInt8.xor_assoc, UInt8.xor_self, UInt8.zero_xor]

/-- The last block (or part of one) of a text of tag 9 decrypts to any wanted octets when it is xored with them and with what it decrypted to. -/
theorem pgpDec9_tail {c : Cipher} (hc : c.Ok) (a last p : Bytes) (k : Nat) (ha : a.length = c.bs + 2 + k * c.bs) (hl : last.length ≤ c.bs)
    (h : pgpCfbDecrypt c 9 (a ++ last) = .ok p) :
    ∃ x q, p = x ++ q ∧ x.length = a.length ∧ q.length = last.length ∧
      ∀ w, w.length = last.length → pgpCfbDecrypt c 9 (a ++ xorStrings last (xorStrings q w)) = .ok (x ++ w) := by
  have hbs := hc.bs_pos
  have hiv : ((a.drop 2).take c.bs).length = c.bs := by rw [List.length_take, List.length_drop]; omega
  obtain ⟨iv', h1, h2⟩ := cfbDec_blocks hc k ((a.drop 2).take c.bs) (a.drop (c.bs + 2)) hiv (by rw [List.length_drop]; omega)
  have hE := hc.enc_len _ h1
  have key : ∀ b, b.length ≤ c.bs → pgpCfbDecrypt c 9 (a ++ b) =
      if lastTwo c.bs (xorStrings (c.enc (List.replicate c.bs 0)) (a.take c.bs)) = xorStrings ((c.enc (a.take c.bs)).take 2) ((a.drop c.bs).take 2) then
        .ok (xorStrings (c.enc (List.replicate c.bs 0)) (a.take c.bs) ++ lastTwo c.bs (xorStrings (c.enc (List.replicate c.bs 0)) (a.take c.bs)) ++
          cfbDec c ((a.drop 2).take c.bs) (a.drop (c.bs + 2)) ++ xorStrings (c.enc iv') b)
      else .throw := by
    intro b hb
    rw [pgpDec_eq c hc 9 (a ++ b) (by rw [List.length_append]; omega) _ rfl]
    simp only [if_true]
    rw [List.take_append_of_le_length (by omega), List.drop_append_of_le_length (by omega), List.drop_append_of_le_length (by omega),
      List.drop_append_of_le_length (by omega), List.take_append_of_le_length (l₁ := a.drop c.bs) (by rw [List.length_drop]; omega),
      List.take_append_of_le_length (l₁ := a.drop 2) (by rw [List.length_drop]; omega), h2, cfbDec_tail hc iv' b hb]
    simp only [List.append_assoc]
  rw [key last hl] at h
  split at h
  · rename_i hm
    refine ⟨_, _, (Out.ok.inj h).symm, ?_, ?_, fun w hw => ?_⟩
    · have h0 : (List.replicate c.bs (0 : UInt8)).length = c.bs := List.length_replicate
      have hx : (xorStrings (c.enc (List.replicate c.bs 0)) (a.take c.bs)).length = c.bs := by
        rw [xorStrings_length, hc.enc_len _ h0, List.length_take]; omega
      rw [List.length_append, List.length_append, hx, lastTwo_length hbs (by omega), cfbDec_length hc _ _ hiv, List.length_drop]
      omega
    · rw [xorStrings_length]; omega
    · rw [key _ (by rw [xorStrings_length]; omega), if_pos hm, xorStrings_swap _ _ _ _ (by omega) rfl hw]
  · exact absurd h (by simp)

/-- For a packet of tag 9 nothing but the prefix is taken away. -/
theorem decryptData_9 {E : Type} {cr : Crypto} {z : Zip} {readE : Bytes → Out E} {depth : Nat} {sym : UInt8} {bs : Nat} (hb : blockLen sym = some bs) {key d p : Bytes}
    (hd : d ≠ []) (hp : usePgpCfbDecrypt cr sym 9 d key = .ok p) (hl : bs + 2 ≤ p.length) {m : Msg E} (hm : m.meaningful = .ok true)
    (hf : firstEncrypted m.packets = some (9, d)) : decryptData cr z readE depth sym m key = Msg.readRaw z readE depth (p.drop (bs + 2)) := by
  rw [decryptData, hm, Out.ok_bind]
  simp only [Bool.not_true, Bool.false_eq_true, if_false, hf]
  rw [if_neg hd, hp, Out.ok_bind, hb, mapAt, Out.ok_bind, stripDecrypted, if_neg (by decide), subSz_of_le (a := p.length) (b := bs) (by omega), subSz_of_le (by omega),
    substr_take (by omega), Out.ok_bind, List.take_of_length_le (by rw [List.length_drop]; omega)]
  rfl

/-- A message without integrity protection: its encrypted octets end in `last`, at most a block behind whole blocks. If they decrypt at all, to a text that ends
in `q`, then who knows `q` and not the key replaces it by any `w`: the message with `last` xored with `q` and `w` is decrypted to the text with `w` there, and read
as any other. -/
theorem C28_unprotected_fails {E : Type} (cr : Crypto) (hcr : cr.Ok) (z : Zip) (readE : Bytes → Out E) (depth : Nat) (sym : UInt8) (n bs : Nat)
    (hk : keyLen sym = some n) (hb : blockLen sym = some bs) (key : Bytes) (hkey : key.length = n) (a last p : Bytes) (k : Nat)
    (ha : a.length = bs + 2 + k * bs) (hl : last.length ≤ bs) (hp : usePgpCfbDecrypt cr sym 9 (a ++ last) key = .ok p) :
    ∃ text q, p = p.take (bs + 2) ++ text ++ q ∧ q.length = last.length ∧
      (∀ m : Msg E, m.meaningful = .ok true → firstEncrypted m.packets = some (9, a ++ last) →
        decryptData cr z readE depth sym m key = Msg.readRaw z readE depth (text ++ q)) ∧
      ∀ w, w.length = q.length → ∀ m : Msg E, m.meaningful = .ok true →
        firstEncrypted m.packets = some (9, a ++ List.zipWith (· ^^^ ·) last (List.zipWith (· ^^^ ·) q w)) →
        decryptData cr z readE depth sym m key = Msg.readRaw z readE depth (text ++ w) := by
  have hs0 : sym ≠ 0 := by rintro rfl; simp [keyLen] at hk
  obtain ⟨c, hc1, hc2, hc3⟩ := hcr.cipher_ok sym n key hk hkey
  have hset : symSetup cr sym key = .ok c := by rw [symSetup, hc3]; simpa using hc1
  obtain rfl : bs = c.bs := by rw [hc3] at hb; exact (Option.some.inj hb).symm
  have hu : ∀ d, usePgpCfbDecrypt cr sym 9 d key = pgpCfbDecrypt c 9 d := by
    intro d; rw [usePgpCfbDecrypt, if_neg hs0, hset, Out.ok_bind]
  rw [hu] at hp
  obtain ⟨x, q, rfl, hx, hq, hw⟩ := pgpDec9_tail hc2 a last p k ha hl hp
  have hrd : ∀ b w, pgpCfbDecrypt c 9 (a ++ b) = .ok (x ++ w) → ∀ m : Msg E, m.meaningful = .ok true → firstEncrypted m.packets = some (9, a ++ b) →
      decryptData cr z readE depth sym m key = Msg.readRaw z readE depth (x.drop (c.bs + 2) ++ w) := by
    intro b w hd m hm hf
    have h := decryptData_9 (cr := cr) (z := z) (readE := readE) (depth := depth) hc3 (key := key)
      (by intro h0; have := congrArg List.length h0; rw [List.length_append, List.length_nil] at this; omega) ((hu _).trans hd)
      (by rw [List.length_append]; omega) hm hf
    rw [h, List.drop_append_of_le_length (by omega)]
  refine ⟨x.drop (c.bs + 2), q, ?_, hq, hrd last q hp, fun w hwl => hrd _ w (hw w (by omega))⟩
  rw [List.take_append_of_le_length (by omega), List.take_append_drop]

/-- Integrity-protected octets can be passed off as unprotected ones: whoever puts their first octets in front of them again and changes the kind of the packet has
them decrypted, behind a block of something, to what they are, digest and all, and the digest is not looked at. With `C28_unprotected_fails` their end can be changed. -/
theorem C28_downgrade_fails {E : Type} (cr : Crypto) (hcr : cr.Ok) (z : Zip) (readE : Bytes → Out E) (depth : Nat) (sym : UInt8) (n bs : Nat)
    (hk : keyLen sym = some n) (hb : blockLen sym = some bs) (key : Bytes) (hkey : key.length = n) (d p : Bytes) (hd : bs + 2 ≤ d.length)
    (hp : usePgpCfbDecrypt cr sym 18 d key = .ok p) :
    ∃ g, g.length = bs ∧ ∀ m : Msg E, m.meaningful = .ok true → firstEncrypted m.packets = some (9, d.take (bs + 2) ++ d) →
      decryptData cr z readE depth sym m key = Msg.readRaw z readE depth (g ++ p.drop bs) := by
  have hs0 : sym ≠ 0 := by rintro rfl; simp [keyLen] at hk
  obtain ⟨c, hc1, hc, hc3⟩ := hcr.cipher_ok sym n key hk hkey
  have hset : symSetup cr sym key = .ok c := by rw [symSetup, hc3]; simpa using hc1
  obtain rfl : bs = c.bs := by rw [hc3] at hb; exact (Option.some.inj hb).symm
  have hu : ∀ tag d, usePgpCfbDecrypt cr sym tag d key = pgpCfbDecrypt c tag d := by
    intro tag d; rw [usePgpCfbDecrypt, if_neg hs0, hset, Out.ok_bind]
  have hbs := hc.bs_pos
  have hdl : (d.take (c.bs + 2)).length = c.bs + 2 := by rw [List.length_take]; omega
  have h0 : (List.replicate c.bs (0 : UInt8)).length = c.bs := List.length_replicate
  have hx : (xorStrings (c.enc (List.replicate c.bs 0)) (d.take c.bs)).length = c.bs := by
    rw [xorStrings_length, hc.enc_len _ h0, List.length_take]; omega
  have t1 : (d.take (c.bs + 2) ++ d).take c.bs = d.take c.bs := by
    rw [List.take_append_of_le_length (by omega), List.take_take, Nat.min_eq_left (by omega)]
  have t2 : ((d.take (c.bs + 2) ++ d).drop c.bs).take 2 = (d.drop c.bs).take 2 := by
    rw [List.drop_append_of_le_length (by omega), List.take_append_of_le_length (by rw [List.length_drop]; omega), List.drop_take, List.take_take,
      Nat.min_eq_left (by omega)]
  have hiv : (((d.take (c.bs + 2) ++ d).drop 2).take c.bs).length = c.bs := by rw [List.length_take, List.length_drop, List.length_append]; omega
  rw [hu, pgpDec_eq c hc 18 d hd _ rfl] at hp
  split at hp
  · rename_i hm
    have hpd : p.drop c.bs = cfbDec c (d.take c.bs) (d.drop c.bs) := by
      rw [← Out.ok.inj hp, if_neg (by decide), if_neg (by decide), List.append_nil, List.drop_left' hx]
    refine ⟨xorStrings (c.enc (((d.take (c.bs + 2) ++ d).drop 2).take c.bs)) (d.take c.bs), by
      rw [xorStrings_length, hc.enc_len _ hiv, List.length_take]; omega, fun m hmm hf => ?_⟩
    have hlt : (lastTwo c.bs (xorStrings (c.enc (List.replicate c.bs 0)) (d.take c.bs))).length = 2 := lastTwo_length hbs (by omega)
    have h9 : pgpCfbDecrypt c 9 (d.take (c.bs + 2) ++ d) = .ok (xorStrings (c.enc (List.replicate c.bs 0)) (d.take c.bs) ++
        lastTwo c.bs (xorStrings (c.enc (List.replicate c.bs 0)) (d.take c.bs)) ++
        (xorStrings (c.enc (((d.take (c.bs + 2) ++ d).drop 2).take c.bs)) (d.take c.bs) ++ p.drop c.bs)) := by
      rw [pgpDec_eq c hc 9 _ (by rw [List.length_append]; omega) _ rfl, t1, t2, if_pos hm, if_pos rfl, if_pos rfl, hpd, List.drop_left' hdl, cfbDec_step hc _ d]
    rw [decryptData_9 hc3 (by intro h0; have := congrArg List.length h0; rw [List.length_append, List.length_nil] at this; omega) ((hu 9 _).trans h9)
      (by simp only [List.length_append]; omega) hmm hf, List.drop_left' (by rw [List.length_append]; omega)]
  · exact absurd hp (by simp)

/-! ## An example -/

/-- `c27Args` with neither compression nor integrity protection. -/
def openArgs : EncArgs := { c27Args with comp := 0, mdc := false }

def openMsg : Msg Empty :=
  match encryptData demoCrypto demoZip (fun e : Empty => nomatch e) openArgs (List.replicate 16 1) (List.replicate 32 5) with
  | .ok (some e) => ⟨none, [e]⟩
  | _ => .empty

/-- The message `1 2 3 4` becomes `1 2 9 9`. -/
def openText : Bytes := ((firstEncrypted openMsg.packets).getD (0, [])).2
def forgedMsg : Msg Empty :=
  ⟨none, [⟨.new, false, .symEnc (openText.take (openText.length - 15) ++
    List.zipWith (· ^^^ ·) (openText.drop (openText.length - 15))
      (List.zipWith (· ^^^ ·) ([203, 13, 98, 3] ++ openArgs.filename ++ [0, 0, 0, 0, 1, 2, 3, 4]) ([203, 13, 98, 3] ++ openArgs.filename ++ [0, 0, 0, 0, 1, 2, 9, 9])))⟩]⟩

example : openMsg.packets.map (·.body.tag) = [9] ∧ openText.length = 18 + 0 * 16 + 15 ∧
    decryptData demoCrypto demoZip (fun _ => .throw) 2 9 openMsg (List.replicate 32 5) = .ok ⟨none, [EncArgs.literal openArgs]⟩ ∧
    decryptData demoCrypto demoZip (fun _ => .throw) 2 9 forgedMsg (List.replicate 32 5) = .ok ⟨none, [EncArgs.literal { openArgs with data := [1, 2, 9, 9] }]⟩ := by
  refine ⟨?_, ?_, ?_, ?_⟩ <;> decide +kernel

/-- The protected text of `c28Msg` as an unprotected one. -/
def passedOff : Bytes := ((firstEncrypted (c28Msg (List.replicate 16 1)).packets).getD (0, [])).2
example : 18 ≤ passedOff.length ∧ (∃ p, usePgpCfbDecrypt demoCrypto 9 18 passedOff (List.replicate 32 5) = .ok p) ∧
    (⟨none, [⟨.new, false, .symEnc (passedOff.take 18 ++ passedOff)⟩]⟩ : Msg Empty).meaningful = .ok true := by
  refine ⟨?_, ⟨_, rfl⟩, ?_⟩ <;> decide +kernel

end OpenPGP
